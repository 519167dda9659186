import Verif.Lemmas.Kept
import Verif.Props.Equilibrium
import Verif.Props.Orderly
import Verif.Props.Rounding

/-!
# C128: idle rounds with simultaneous activation
-/

set_option linter.unusedSectionVars false

namespace RSE.Props

variable {K : Type} [Field K] [LinearOrder K] [IsStrictOrderedRing K]

/-- The delegations that agent `a` speaks of are recorded in the pools that are open, unless there is no pool that it could delegate to. -/
def Kept (s : State K) (a : Nat) : Prop :=
  ∀ ag σ, s.agents.get? a = some ag → ag.strategy = some σ → (∃ r, Eligible s a r) →
    ∀ pid x r, σ.allocs.get? pid = some x → s.pools.get? pid = some r → (s.heap r).delegators.get? a = some x

theorem Kept.of_books {s : State K} (h : BooksAgree s) (a : Nat) : Kept s a := by
  intro ag σ ha hσ _ pid x r hx hp
  obtain ⟨r', hp', hx'⟩ := (h a ag σ ha hσ pid x).2 hx
  rw [hp] at hp'; cases hp'
  exact hx'

/-- what an agent says does not depend on what it has staged -/
theorem Kept.mono {s t : State K} {a : Nat} (h : Kept s a) (hs : ∀ pid r, s.pools.get? pid = some r → r < s.next) (hpools : t.pools = s.pools)
    (hag : ∀ ag σ, t.agents.get? a = some ag → ag.strategy = some σ → ∃ ag', s.agents.get? a = some ag' ∧ ag'.strategy = some σ)
    (hsame : ∀ r < s.next, SamePool (s.heap r) (t.heap r))
    (hdel : ∀ r < s.next, (t.heap r).delegators.get? a = (s.heap r).delegators.get? a) : Kept t a := by
  rintro ag σ ha hσ ⟨r₀, h1, h2, h3⟩ pid x r hx hp
  obtain ⟨ag', ha', hσ'⟩ := hag ag σ ha hσ
  rw [hpools] at hp h1
  have hr₀ := hs _ _ h1
  have hr := hs _ _ hp
  rw [hdel r hr]
  have hsm := hsame r₀ hr₀
  refine h ag' σ ha' hσ' ⟨r₀, ?_, ?_, ?_⟩ pid x r hx hp
  · rw [← hsm.id]; exact h1
  · rw [← hsm.owner]; exact h2
  · rw [← hsm.isPrivate]; exact h3

/-- planning leaves no trace, if the agent's delegations are recorded -/
theorem calm_of_kept {c : Config K} {s s₁ : State K} (h : Reachable c s) {a : Nat} {ag : Agent K} {σ : Strategy K}
    (ha : s.agents.get? a = some ag) (hσ : ag.strategy = some σ) (hk : Kept s a) {ord : List Nat → List Nat}
    (hord : ∀ l, (ord l).Perm l) {oν : Option (Strategy K)} (hpm : planMove ord s ag σ = .ok (s₁, oν)) : Calm s s₁ := by
  have hg := h.good minUnit_pos
  have ht := hg.inv.tidy a ag ha
  have hown : ∀ pid r, σ.owned.get? pid = some r → s.pools.get? pid = some r := fun pid r hr => (hg.inv.owned ha hσ hr).1
  obtain ⟨hc, hp, hr, -⟩ := (planMove_spec hg.inv.core hord ag (ht.allocs _ hσ) (ht.owned _ hσ) hown).of_ok hpm
  have hid := hg.inv.core.agentId a ag ha
  rw [hid] at hp hr
  simp only at hc hp hr
  have hmin := (h.allocsMin minUnit_pos a ag ha).1 σ hσ
  have hb := h.planned_balanced ha hσ hord hpm
  have hget : ∀ r < s.next, ∀ b, (s₁.heap r).delegators.get? b = (s.heap r).delegators.get? b := by
    intro r hrn b
    by_cases hba : b = a
    · subst hba
      by_cases hel : ∃ r₀, Eligible s b r₀
      · by_cases hex : ∃ pid ∈ σ.allocs.keys, s.pools.get? pid = some r
        · obtain ⟨pid, hm, hpr⟩ := hex
          obtain ⟨x, hx⟩ := Dict.mem_keys_iff.1 hm
          rcases hr pid r hpr with h1 | h1
          · exact h1
          · rw [h1, hx, hk ag σ ha hσ hel pid x r hx hpr]
            exact recorded_of_min (hmin _ (Dict.mem_of_get? hx))
        · push Not at hex
          rw [hp.untouched r hrn hex]
      · push Not at hel
        rw [planMove_still hg.inv.core hord (ht.owned _ hσ) hown (by rw [hid]; exact hel) hpm r hrn]
    · exact hp.others r hrn b hba
  have hal : ∀ r < s.next, Alike (s.heap r) (s₁.heap r) := fun r hrn =>
    ⟨hp.same r hrn, (h.balanced r).stake_eq (hb r) (hp.same r hrn) (hget r hrn)⟩
  have hrm : s₁.rankM = s.rankM := by
    refine SKL.eq_of_perm hc.rankMSorted hg.inv.core.rankMSorted ?_ hc.rankM_unique
    refine hc.rankMPerm.trans (List.Perm.trans (List.Perm.of_eq ?_) hg.inv.core.rankMPerm.symm)
    unfold rankEntries
    rw [hp.pools, hp.rs]
    congr 1
    apply List.map_congr_left
    intro e he
    rw [(hal e.2 (hg.inv.core.poolRef _ _ (Dict.get?_of_mem hg.inv.core.poolsNodup he)).1).keyM]
  refine ⟨?_, hp.next_le, hal, fun r hrn => Dict.perm_of_get? (hg.inv.core.delNodup r) (hc.delNodup r) (hget r hrn)⟩
  have := hp.eq
  rw [hrm] at this
  exact this

/-! ### One agent plans -/

/-- A step, whatever the agent stages: its own delegations are recorded afterwards, and those of others stay recorded. -/
theorem step_kept {c : Config K} (hc : c.simultaneous = true) (h0 : ∀ e ∈ c.people, 0 ≤ e.1) (hb : 0 ≤ c.rs.beta) {s t : State K}
    (h : Reachable c s) {a : Nat} {ord : List Nat → List Nat} (hv : (Event.step (F := K) a ord).Valid c.people.length)
    (he : exec s (.step a ord) = .ok t) :
    Kept t a ∧ (∀ b, Kept s b → Kept t b) ∧ (∀ b, b ≠ a → t.agents.get? b = s.agents.get? b) ∧ t.idle = s.idle := by
  have hg := h.good minUnit_pos
  have hd := (hg.exec minUnit_pos hv).of_ok he
  have hsim : s.simultaneous = true := by rw [hg.fixed.simultaneous]; exact hc
  cases hd.1 with
  | idle me ord ag ha hp =>
    refine ⟨fun ag' σ ha' hσ => ?_, fun b hb => hb, fun _ _ => rfl, rfl⟩
    rw [ha] at ha'; cases ha'
    have := (hg.inv.abst a ag ha hp).1
    rw [hσ] at this; cases this
  | move me ord ag σ ν s₁ s₂ s₃ ha hp hσ hpm hpl hs => rw [hsim] at hs; cases hs
  | plan me ord ag σ oν s₁ s' ha hp hσ hpm hpl hs ht =>
    have hid := hg.inv.core.agentId a ag ha
    have hag : ∀ b, t.agents.get? b = if b = a then some { ag with newStrategy := oν } else s.agents.get? b := by
      intro b; rw [hpl.eq, get?_setAgent (me := a) (ag := { ag with newStrategy := oν }) hid b, hpl.planned.agents]
    have hpools : t.pools = s.pools := by rw [hpl.eq]; exact hpl.planned.pools
    have hheap : t.heap = s₁.heap := by rw [hpl.eq]; rfl
    have hrefs : ∀ pid r, s.pools.get? pid = some r → r < s.next := fun pid r hp => (hg.inv.core.poolRef _ _ hp).1
    have htd := hg.inv.tidy a ag ha
    have hown : ∀ pid r, σ.owned.get? pid = some r → s.pools.get? pid = some r := fun pid r hr => (hg.inv.owned ha hσ hr).1
    have hself : Kept t a := by
      rintro ag' σ' ha' hσ' ⟨r₀, h1, h2, h3⟩ pid x r hx hp
      rw [hag, if_pos rfl] at ha'
      cases ha'
      simp only at hσ'
      rw [hσ] at hσ'; cases hσ'
      rw [hpools] at h1 hp
      rw [hheap] at h1 h2 h3 ⊢
      have hsm := hpl.planned.same r₀ (hrefs _ _ h1)
      have hel : Eligible s ag.id r₀ := by
        refine ⟨?_, ?_, ?_⟩
        · rw [← hsm.id]; exact h1
        · rw [hid, ← hsm.owner]; exact h2
        · rw [← hsm.isPrivate]; exact h3
      obtain ⟨g1, g2⟩ := C96_delegations h h0 hb ha hσ (pid, x) (Dict.mem_of_get? hx)
      have := planMove_records hg.inv.core hv.2 (htd.allocs _ hσ) (htd.owned _ hσ) hown hel (g1.trans g2) hpm hx hp
      rw [hid] at this
      rw [this]
      exact recorded_of_min g1
    refine ⟨hself, fun b hk => ?_, fun b hne => by rw [hag, if_neg hne], by rw [hpl.eq]; exact hpl.planned.idle⟩
    by_cases hba : b = a
    · subst hba; exact hself
    · refine hk.mono hrefs hpools (fun ag' σ' ha' hσ' => ?_) (fun r hr => by rw [hheap]; exact hpl.planned.same r hr)
        (fun r hr => by rw [hheap]; exact hpl.planned.others r hr b hba)
      rw [hag, if_neg hba] at ha'
      exact ⟨ag', ha', hσ'⟩

/-! ### Idle batches -/

/-- the delegations of agent `a` are recorded, and it has nothing staged -/
def AtEase (s : State K) (a : Nat) : Prop := Kept s a ∧ staged s a = none

/-- once an agent has moved, the round stays marked as not idle -/
theorem exec_stays {c : Config K} {s t : State K} (h : Reachable c s) {a : Nat} {ord : List Nat → List Nat}
    (ha : a < c.people.length) (hord : ∀ l, (ord l).Perm l) (he : exec s (.advance a ord) = .ok t) (hi : t.idle = true) :
    t = s ∧ staged s a = none := by
  have hg := h.good minUnit_pos
  have hd := (hg.exec minUnit_pos (ev := .advance a ord) ⟨ha, hord⟩).of_ok he
  cases hd.1 with
  | skip me ord ag hag hn => exact ⟨rfl, by unfold staged; rw [hag]; exact hn⟩
  | adv me ord ag σ ν s₃ => cases hi

theorem iterM_stays {c : Config K} {ord : List Nat → List Nat} (hord : ∀ l, (ord l).Perm l) (l : List Nat) :
    ∀ {s t : State K}, Reachable c s → (∀ a ∈ l, a < c.people.length) → iterM exec s (l.map (fun a => Event.advance a ord)) = .ok t → t.idle = true →
      t = s ∧ ∀ a ∈ l, staged s a = none := by
  induction l with
  | nil => intro s t _ _ he _; cases he; exact ⟨rfl, by simp⟩
  | cons a l ih =>
    intro s t h hv he hi
    simp only [List.map_cons, iterM] at he
    obtain ⟨s₁, h1, h2⟩ := bind_ok he
    have hva := hv a List.mem_cons_self
    obtain ⟨g1, g2⟩ := ih (h.next (ev := .advance a ord) ⟨hva, hord⟩ h1) (fun b hb => hv b (List.mem_cons_of_mem _ hb)) h2 hi
    subst g1
    obtain ⟨k1, k2⟩ := exec_stays h hva hord h1 hi
    subst k1
    refine ⟨rfl, fun b hb => ?_⟩
    rcases List.mem_cons.1 hb with rfl | hb
    · exact k2
    · exact g2 b hb

/-- the agents of a list plan, whatever they stage -/
theorem plans_kept {c : Config K} (hc : c.simultaneous = true) (h0 : ∀ e ∈ c.people, 0 ≤ e.1) (hb : 0 ≤ c.rs.beta) {ord : List Nat → List Nat}
    (hord : ∀ l, (ord l).Perm l) (l : List Nat) :
    ∀ {s t : State K}, Reachable c s → (∀ a ∈ l, a < c.people.length) → iterM exec s (l.map (fun a => Event.step a ord)) = .ok t →
      Reachable c t ∧ (∀ a ∈ l, Kept t a) ∧ (∀ b, Kept s b → Kept t b) ∧ (∀ b, b ∉ l → t.agents.get? b = s.agents.get? b) ∧ t.idle = s.idle := by
  induction l with
  | nil => intro s t h _ he; cases he; exact ⟨h, by simp, fun _ h => h, fun _ _ => rfl, rfl⟩
  | cons a l ih =>
    intro s t h hv he
    simp only [List.map_cons, iterM] at he
    obtain ⟨s₁, h1, h2⟩ := bind_ok he
    have hva : (Event.step (F := K) a ord).Valid c.people.length := ⟨hv a List.mem_cons_self, hord⟩
    obtain ⟨k1, k2, k3, k4⟩ := step_kept hc h0 hb h hva h1
    obtain ⟨g1, g2, g3, g4, g5⟩ := ih (h.next hva h1) (fun b hb => hv b (List.mem_cons_of_mem _ hb)) h2
    refine ⟨g1, fun b hb => ?_, fun b hk => g3 b (k2 b hk), fun b hb => ?_, g5.trans k4⟩
    · rcases List.mem_cons.1 hb with rfl | hb
      · exact g3 _ k1
      · exact g2 b hb
    · rw [List.mem_cons, not_or] at hb
      rw [g4 b hb.2, k3 b hb.1]

/-- a batch as two lists of events -/
theorem runBatch_maps (ord : List Nat → List Nat) (b : List Nat) (s : State K) :
    runBatch (fun _ => ord) s b = (iterM exec s (b.map (fun a => Event.step a ord))).bind
      (fun u => iterM exec u (b.map (fun a => Event.advance a ord))) := by
  have h1 : ∀ f : Nat → Event K, b.zipIdx.map (fun e => f e.1) = b.map f := by
    intro f
    conv_rhs => rw [← List.zipIdx_map_fst 0 b]
    rw [List.map_map]; rfl
  rw [runBatch_halves]
  unfold plansOf movesOf stepEvents advanceEvents
  rw [h1 (fun a => Event.step a ord)]
  congr 1
  funext u
  rw [h1 (fun a => Event.advance a ord)]

/-- an idle batch: afterwards its agents are at ease -/
theorem batch_ease {c : Config K} (hc : c.simultaneous = true) (h0 : ∀ e ∈ c.people, 0 ≤ e.1) (hb : 0 ≤ c.rs.beta) {ord : List Nat → List Nat}
    (hord : ∀ l, (ord l).Perm l) {b : List Nat} (hv : ∀ a ∈ b, a < c.people.length) {s t : State K} (h : Reachable c s)
    (he : runBatch (fun _ => ord) s b = .ok t) (hi : t.idle = true) :
    s.idle = true ∧ Reachable c t ∧ (∀ a ∈ b, AtEase t a) ∧ (∀ a, AtEase s a → AtEase t a) := by
  rw [runBatch_maps] at he
  obtain ⟨u, h1, h2⟩ := bind_ok (x := iterM exec s (b.map (fun a => Event.step a ord))) he
  obtain ⟨k1, k2, k3, k4, k5⟩ := plans_kept hc h0 hb hord b h hv h1
  obtain ⟨g1, g2⟩ := iterM_stays hord b k1 hv h2 hi
  subst g1
  refine ⟨k5 ▸ hi, k1, fun a ha => ⟨k2 a ha, g2 a ha⟩, fun a ha => ?_⟩
  by_cases hab : a ∈ b
  · exact ⟨k2 a hab, g2 a hab⟩
  · refine ⟨k3 a ha.1, ?_⟩
    have := ha.2
    unfold staged at this ⊢
    rw [k4 a hab]; exact this

/-! ### Idle batches of agents at ease -/

theorem Quiet.ease {n : Nat} {s t : State K} (h : Quiet s t) (hs : Core n s) {a : Nat} (ha : AtEase s a) : AtEase t a := by
  refine ⟨ha.1.mono (fun pid r hp => (hs.poolRef _ _ hp).1) (by rw [h.1.eq]) ?_ (fun r hr => (h.1.alike r hr).same) (fun r hr => ?_), ?_⟩
  · intro ag σ hag hσ
    rw [h.1.agents] at hag
    exact ⟨ag, hag, hσ⟩
  · exact Dict.get?_of_perm (h.1.dels r hr) (hs.delNodup r) a
  · have := ha.2
    unfold staged at this ⊢
    rw [h.1.agents]; exact this

/-- an agent at ease that stages nothing: nothing has changed -/
theorem step_rests {c : Config K} (hc : c.simultaneous = true) {s t : State K} (h : Reachable c s) {a : Nat} (hea : AtEase s a)
    {ord : List Nat → List Nat} (hv : (Event.step (F := K) a ord).Valid c.people.length)
    (he : exec s (.step a ord) = .ok t) (hst : staged t a = none) : Quiet s t ∧ Rests ord s a := by
  have hg := h.good minUnit_pos
  have hd := (hg.exec minUnit_pos hv).of_ok he
  have hsim : s.simultaneous = true := by rw [hg.fixed.simultaneous]; exact hc
  have hseq := (hd.1.fixed hg.inv).idSeq
  cases hd.1 with
  | idle me ord ag ha hp => exact ⟨Quiet.refl s, ag, ha, Or.inl hp⟩
  | move me ord ag σ ν s₁ s₂ s₃ ha hp hσ hpm hpl hs => rw [hsim] at hs; cases hs
  | plan me ord ag σ oν s₁ s' ha hp hσ hpm hpl hs ht =>
    have hid := hg.inv.core.agentId a ag ha
    have hn : oν = none := by
      unfold staged at hst
      rw [hpl.eq, get?_setAgent (me := a) (ag := { ag with newStrategy := oν }) hid a, if_pos rfl] at hst
      exact hst
    subst hn
    have hnew : ag.newStrategy = none := by
      have := hea.2
      unfold staged at this
      rw [ha] at this
      exact this
    have hcalm := calm_of_kept h ha hσ hea.1 hv.2 hpm
    have hset : s₁.setAgent { ag with newStrategy := none } = s₁ := by
      have h2 : ({ ag with newStrategy := none } : Agent K) = ag := by rw [← hnew]
      rw [h2]
      unfold State.setAgent
      rw [hid, Dict.set_same (by rw [hcalm.agents]; exact ha)]
    have ht : t = s₁ := hpl.eq.trans hset
    subst ht
    exact ⟨⟨hcalm, hseq⟩, ag, ha, Or.inr ⟨σ, t, hσ, hpm⟩⟩

theorem plans_rest {c : Config K} (hc : c.simultaneous = true) (h0 : ∀ e ∈ c.people, 0 ≤ e.1) (hb : 0 ≤ c.rs.beta) {ord : List Nat → List Nat}
    (hord : ∀ l, (ord l).Perm l) (l : List Nat) :
    ∀ {s t : State K}, Reachable c s → l.Nodup → (∀ a ∈ l, a < c.people.length) → (∀ a ∈ l, AtEase s a) →
      iterM exec s (l.map (fun a => Event.step a ord)) = .ok t → (∀ a ∈ l, staged t a = none) →
      Quiet s t ∧ ∀ a ∈ l, ∃ s₀, Reachable c s₀ ∧ Quiet s₀ t ∧ Rests ord s₀ a := by
  induction l with
  | nil => intro s t _ _ _ _ he _; cases he; exact ⟨Quiet.refl s, by simp⟩
  | cons a l ih =>
    intro s t h hnd hv hea he hst
    simp only [List.map_cons, iterM] at he
    obtain ⟨s₁, h1, h2⟩ := bind_ok he
    rw [List.nodup_cons] at hnd
    have hva : (Event.step (F := K) a ord).Valid c.people.length := ⟨hv a List.mem_cons_self, hord⟩
    have hvl : ∀ b ∈ l, b < c.people.length := fun b hb => hv b (List.mem_cons_of_mem _ hb)
    have hr₁ := h.next hva h1
    obtain ⟨-, -, -, g4, -⟩ := plans_kept hc h0 hb hord l hr₁ hvl h2
    have hst₁ : staged s₁ a = none := by
      have := hst a List.mem_cons_self
      unfold staged at this ⊢
      rw [← g4 a hnd.1]; exact this
    obtain ⟨q1, q2⟩ := step_rests hc h (hea a List.mem_cons_self) hva h1 hst₁
    obtain ⟨k1, k2⟩ := ih hr₁ hnd.2 hvl (fun b hb => q1.ease (h.good minUnit_pos).inv.core (hea b (List.mem_cons_of_mem _ hb))) h2
      (fun b hb => hst b (List.mem_cons_of_mem _ hb))
    refine ⟨q1.trans k1, fun b hb => ?_⟩
    rcases List.mem_cons.1 hb with rfl | hb
    · exact ⟨s, h, q1.trans k1, q2⟩
    · exact k2 b hb

theorem batch_rests {c : Config K} (hc : c.simultaneous = true) (h0 : ∀ e ∈ c.people, 0 ≤ e.1) (hb : 0 ≤ c.rs.beta) {ord : List Nat → List Nat}
    (hord : ∀ l, (ord l).Perm l) {b : List Nat} (hnd : b.Nodup) (hv : ∀ a ∈ b, a < c.people.length) {s t : State K} (h : Reachable c s)
    (hea : ∀ a < c.people.length, AtEase s a) (he : runBatch (fun _ => ord) s b = .ok t) (hi : t.idle = true) :
    Quiet s t ∧ ∀ a ∈ b, ∃ s₀, Reachable c s₀ ∧ Quiet s₀ t ∧ Rests ord s₀ a := by
  rw [runBatch_maps] at he
  obtain ⟨u, h1, h2⟩ := bind_ok (x := iterM exec s (b.map (fun a => Event.step a ord))) he
  obtain ⟨k1, -⟩ := plans_kept hc h0 hb hord b h hv h1
  obtain ⟨g1, g2⟩ := iterM_stays hord b k1 hv h2 hi
  subst g1
  exact plans_rest hc h0 hb hord b h hnd hv (fun a ha => hea a (hv a ha)) h1 g2

/-! ### Rounds -/

/-- A round with simultaneous or semi-simultaneous activation: a list of batches (activations.py:19-31; with simultaneous activation there is one
batch).  Sets are iterated in the order `ord`. -/
def batchRound (ord : List Nat → List Nat) (bs : List (List Nat)) (s : State K) : Py (State K) := iterM (fun s b => runBatch (fun _ => ord) s b) s bs

/-- `bs` are the batches of a round with `n` agents: every agent is in one of them, and in each at most once -/
structure FullRound (n : Nat) (bs : List (List Nat)) : Prop where
  nodup : ∀ b ∈ bs, b.Nodup
  agents : ∀ b ∈ bs, ∀ a ∈ b, a < n
  all : ∀ a < n, ∃ b ∈ bs, a ∈ b

theorem batchRound_simultaneous (ord : List Nat → List Nat) (order : List Nat) (s : State K) :
    roundSimultaneous (fun _ => ord) order s = batchRound ord [order] s := by
  unfold batchRound
  simp only [iterM, bind]
  change runBatch (fun _ => ord) s order = _
  cases runBatch (fun _ => ord) s order <;> rfl

theorem batchRound_semi (z : Nat) (sample : List Nat → Nat → List Nat) (ord : List Nat → List Nat) (keys : List Nat) (s : State K) :
    roundSemi z sample (fun _ _ => ord) keys s = batchRound ord (batches z sample keys.length keys) s := by
  unfold roundSemi batchRound
  conv_rhs => rw [← List.zipIdx_map_fst 0 (batches z sample keys.length keys), iterM_map]

theorem FullRound.simultaneous {n : Nat} {order : List Nat} (h : order.Perm (List.range n)) : FullRound n [order] := by
  refine ⟨fun b hb => ?_, fun b hb a ha => ?_, fun a ha => ⟨order, by simp, h.mem_iff.2 (List.mem_range.2 ha)⟩⟩
  · rw [List.mem_singleton.1 hb]; exact h.nodup_iff.2 List.nodup_range
  · rw [List.mem_singleton.1 hb] at ha
    exact List.mem_range.1 (h.mem_iff.1 ha)

theorem FullRound.semi {n z : Nat} (hz : 1 ≤ z) {sample : List Nat → Nat → List Nat} (hs : SampleOK sample) :
    FullRound n (batches z sample (List.range n).length (List.range n)) := by
  obtain ⟨h1, -⟩ := batches_spec hz hs (List.range n).length (List.range n) List.nodup_range le_rfl
  have hnd := h1.nodup_iff.2 List.nodup_range
  refine ⟨fun b hb => (List.nodup_flatten.1 hnd).1 b hb, fun b hb a ha => ?_, fun a ha => ?_⟩
  · exact List.mem_range.1 (h1.mem_iff.1 (List.mem_flatten.2 ⟨b, hb, ha⟩))
  · obtain ⟨b, hb, hab⟩ := List.mem_flatten.1 (h1.mem_iff.2 (List.mem_range.2 ha))
    exact ⟨b, hb, hab⟩

/-- after an idle round all agents are at ease -/
theorem round_ease {c : Config K} (hc : c.simultaneous = true) (h0 : ∀ e ∈ c.people, 0 ≤ e.1) (hb : 0 ≤ c.rs.beta) {ord : List Nat → List Nat}
    (hord : ∀ l, (ord l).Perm l) (bs : List (List Nat)) :
    ∀ {s t : State K}, Reachable c s → (∀ b ∈ bs, ∀ a ∈ b, a < c.people.length) → batchRound ord bs s = .ok t → t.idle = true →
      s.idle = true ∧ Reachable c t ∧ (∀ b ∈ bs, ∀ a ∈ b, AtEase t a) ∧ ∀ a, AtEase s a → AtEase t a := by
  induction bs with
  | nil => intro s t h _ he hi; cases he; exact ⟨hi, h, by simp, fun _ h => h⟩
  | cons b bs ih =>
    intro s t h hv he hi
    unfold batchRound at he
    simp only [iterM] at he
    obtain ⟨s₁, h1, h2⟩ := bind_ok he
    have hvb := hv b List.mem_cons_self
    have hr₁ : Reachable c s₁ := by
      rw [runBatch_eq] at h1
      refine reachable_iterM h (fun e he => ?_) h1
      unfold batchEvents stepEvents advanceEvents at he
      rcases List.mem_append.1 he with he | he
      · obtain ⟨⟨a, i⟩, ha, rfl⟩ := List.mem_map.1 he
        exact ⟨hvb a (List.fst_mem_of_mem_zipIdx ha), hord⟩
      · obtain ⟨⟨a, i⟩, ha, rfl⟩ := List.mem_map.1 he
        exact ⟨hvb a (List.fst_mem_of_mem_zipIdx ha), hord⟩
    obtain ⟨g1, g2, g3, g4⟩ := ih hr₁ (fun b' hb' => hv b' (List.mem_cons_of_mem _ hb')) h2 hi
    obtain ⟨k1, -, k3, k4⟩ := batch_ease hc h0 hb hord hvb h h1 g1
    refine ⟨k1, g2, fun b' hb' a ha => ?_, fun a ha => g4 a (k4 a ha)⟩
    rcases List.mem_cons.1 hb' with rfl | hb'
    · exact g4 a (k3 a ha)
    · exact g3 b' hb' a ha

/-- an idle round in which all agents are at ease -/
theorem round_rests {c : Config K} (hc : c.simultaneous = true) (h0 : ∀ e ∈ c.people, 0 ≤ e.1) (hb : 0 ≤ c.rs.beta) {ord : List Nat → List Nat}
    (hord : ∀ l, (ord l).Perm l) (bs : List (List Nat)) :
    ∀ {s t : State K}, Reachable c s → (∀ a < c.people.length, AtEase s a) → (∀ b ∈ bs, b.Nodup) → (∀ b ∈ bs, ∀ a ∈ b, a < c.people.length) →
      batchRound ord bs s = .ok t → t.idle = true →
      Quiet s t ∧ ∀ b ∈ bs, ∀ a ∈ b, ∃ s₀, Reachable c s₀ ∧ Quiet s₀ t ∧ Rests ord s₀ a := by
  induction bs with
  | nil => intro s t h _ _ _ he hi; cases he; exact ⟨Quiet.refl s, by simp⟩
  | cons b bs ih =>
    intro s t h hea hnd hv he hi
    have hfst : batchRound ord [b] s = runBatch (fun _ => ord) s b := (batchRound_simultaneous ord b s).symm
    unfold batchRound at he
    simp only [iterM] at he
    obtain ⟨s₁, h1, h2⟩ := bind_ok he
    have hvb := hv b List.mem_cons_self
    have hvl : ∀ b' ∈ bs, ∀ a ∈ b', a < c.people.length := fun b' hb' => hv b' (List.mem_cons_of_mem _ hb')
    have hr₁ : Reachable c s₁ := by
      rw [runBatch_eq] at h1
      refine reachable_iterM h (fun e he => ?_) h1
      unfold batchEvents stepEvents advanceEvents at he
      rcases List.mem_append.1 he with he | he
      · obtain ⟨⟨a, i⟩, ha, rfl⟩ := List.mem_map.1 he
        exact ⟨hvb a (List.fst_mem_of_mem_zipIdx ha), hord⟩
      · obtain ⟨⟨a, i⟩, ha, rfl⟩ := List.mem_map.1 he
        exact ⟨hvb a (List.fst_mem_of_mem_zipIdx ha), hord⟩
    have hi₁ : s₁.idle = true := (round_ease hc h0 hb hord bs hr₁ hvl h2 hi).1
    obtain ⟨q1, q2⟩ := batch_rests hc h0 hb hord (hnd b List.mem_cons_self) hvb h hea h1 hi₁
    obtain ⟨k1, k2⟩ := ih hr₁ (fun a ha => q1.ease (h.good minUnit_pos).inv.core (hea a ha)) (fun b' hb' => hnd b' (List.mem_cons_of_mem _ hb')) hvl h2 hi
    refine ⟨q1.trans k1, fun b' hb' a ha => ?_⟩
    rcases List.mem_cons.1 hb' with rfl | hb'
    · obtain ⟨s₀, m1, m2, m3⟩ := q2 a ha
      exact ⟨s₀, m1, m2.trans k1, m3⟩
    · exact k2 b' hb' a ha

/-! ### At rest -/

/-- all agents are at ease, and each has found, here or in an earlier state that looked the same, that it keeps its strategy -/
structure AtRest (c : Config K) (ord : List Nat → List Nat) (t : State K) : Prop where
  reachable : Reachable c t
  ease : ∀ a < c.people.length, AtEase t a
  rests : ∀ a < c.people.length, ∃ s, Reachable c s ∧ Quiet s t ∧ Rests ord s a

theorem AtRest.advance {c : Config K} {ord : List Nat → List Nat} {t : State K} (h : AtRest c ord t) {a : Nat} (ha : a < c.people.length) :
    exec t (.advance a ord) = .ok t := by
  have hg := h.reachable.good minUnit_pos
  obtain ⟨ag, hag⟩ := Option.isSome_iff_exists.1 (show (t.agents.get? a).isSome by rw [hg.fixed.isSome]; exact isSome_init c ha)
  have hn : ag.newStrategy = none := by
    have := (h.ease a ha).2
    unfold staged at this
    rw [hag] at this
    exact this
  change RSE.advance ord t a = _
  unfold RSE.advance
  rw [Dict.getE_of hag]
  simp only [bind, Except.bind, hn]
  rfl

theorem AtRest.step {c : Config K} (hc : c.simultaneous = true) {ord : List Nat → List Nat} (hord : ∀ l, (ord l).Perm l) {t : State K}
    (h : AtRest c ord t) {a : Nat} (hlt : a < c.people.length) :
    ∃ t', exec t (.step a ord) = .ok t' ∧ Quiet t t' ∧ t'.idle = t.idle ∧ AtRest c ord t' := by
  obtain ⟨s, hs, hq, ag, ha, hag⟩ := h.rests a hlt
  have hg := h.reachable.good minUnit_pos
  have hta : t.agents.get? a = some ag := by rw [hq.1.agents]; exact ha
  have hnew : ag.newStrategy = none := by
    have := (h.ease a hlt).2
    unfold staged at this
    rw [hta] at this
    exact this
  have hid := hg.inv.core.agentId a ag hta
  have hsim : t.simultaneous = true := by rw [hg.fixed.simultaneous]; exact hc
  have done : ∀ t', exec t (.step a ord) = .ok t' → Quiet t t' → AtRest c ord t' := by
    intro t' he hq'
    refine ⟨h.reachable.next (ev := .step a ord) ⟨hlt, hord⟩ he, fun b hb => hq'.ease hg.inv.core (h.ease b hb), fun b hb => ?_⟩
    obtain ⟨s', h1, h2, h3⟩ := h.rests b hb
    exact ⟨s', h1, h2.trans hq', h3⟩
  by_cases hp : ag.profile = .abstainer
  · have he := step_idle hsim hta hp ord
    exact ⟨t, he, Quiet.refl t, rfl, done t he (Quiet.refl t)⟩
  · rcases hag with hp' | ⟨σ, s₁, hσ, hpm⟩
    · exact absurd hp' hp
    have htw := hq.twin (hs.good minUnit_pos).inv.core hg.inv.core
    have hown : ∀ e ∈ σ.owned, s.pools.get? e.1 = some e.2 := by
      intro e he
      have hsg := hs.good minUnit_pos
      have hn := (hsg.inv.tidy a ag ha).owned _ hσ
      exact ((hsg.inv.owned ha hσ (Dict.get?_of_mem hn he)).1)
    have hrel := planMove_twin htw ord ag hown
    rw [hpm] at hrel
    cases hpt : planMove ord t ag σ with
    | error e => rw [hpt] at hrel; exact hrel.elim
    | ok o =>
      obtain ⟨t₁, oν⟩ := o
      rw [hpt] at hrel
      have hn : oν = none := hrel.2
      subst hn
      have hcalm := calm_of_kept h.reachable hta hσ (h.ease a hlt).1 hord hpt
      have hset : t₁.setAgent { ag with newStrategy := none } = t₁ := by
        have h2 : ({ ag with newStrategy := none } : Agent K) = ag := by rw [← hnew]
        rw [h2]
        unfold State.setAgent
        rw [hid, Dict.set_same (by rw [hcalm.agents]; exact hta)]
      have he := step_plans hta hp hσ hpt (by rw [hcalm.eq]; exact hsim)
      rw [hset] at he
      have hq' : Quiet t t₁ := by
        refine ⟨hcalm, ?_⟩
        have hd := (hg.exec minUnit_pos (ev := .step a ord) ⟨hlt, hord⟩).of_ok he
        exact (hd.1.fixed hg.inv).idSeq
      exact ⟨t₁, he, hq', by rw [hcalm.eq], done t₁ he hq'⟩

theorem AtRest.steps {c : Config K} (hc : c.simultaneous = true) {ord : List Nat → List Nat} (hord : ∀ l, (ord l).Perm l) (l : List Nat) :
    ∀ {t : State K}, AtRest c ord t → (∀ a ∈ l, a < c.people.length) →
      ∃ t', iterM exec t (l.map (fun a => Event.step a ord)) = .ok t' ∧ Quiet t t' ∧ t'.idle = t.idle ∧ AtRest c ord t' := by
  induction l with
  | nil => intro t h _; exact ⟨t, rfl, Quiet.refl t, rfl, h⟩
  | cons a l ih =>
    intro t h hv
    obtain ⟨t₁, h1, h2, h3, h4⟩ := h.step hc hord (hv a List.mem_cons_self)
    obtain ⟨t₂, g1, g2, g3, g4⟩ := ih h4 (fun b hb => hv b (List.mem_cons_of_mem _ hb))
    refine ⟨t₂, ?_, h2.trans g2, g3.trans h3, g4⟩
    simp only [List.map_cons, iterM, h1, bind, Except.bind]
    exact g1

theorem AtRest.advances {c : Config K} {ord : List Nat → List Nat} (l : List Nat) {t : State K} (h : AtRest c ord t)
    (hv : ∀ a ∈ l, a < c.people.length) : iterM exec t (l.map (fun a => Event.advance a ord)) = .ok t := by
  induction l with
  | nil => rfl
  | cons a l ih =>
    simp only [List.map_cons, iterM, h.advance (hv a List.mem_cons_self), bind, Except.bind]
    exact ih (fun b hb => hv b (List.mem_cons_of_mem _ hb))

/-- at rest, any batches change nothing -/
theorem AtRest.batches {c : Config K} (hc : c.simultaneous = true) {ord : List Nat → List Nat} (hord : ∀ l, (ord l).Perm l) (bs : List (List Nat)) :
    ∀ {t : State K}, AtRest c ord t → (∀ b ∈ bs, ∀ a ∈ b, a < c.people.length) →
      ∃ t', batchRound ord bs t = .ok t' ∧ Quiet t t' ∧ t'.idle = t.idle ∧ AtRest c ord t' := by
  induction bs with
  | nil => intro t h _; exact ⟨t, rfl, Quiet.refl t, rfl, h⟩
  | cons b bs ih =>
    intro t h hv
    have hvb := hv b List.mem_cons_self
    obtain ⟨t₁, h1, h2, h3, h4⟩ := h.steps hc hord b hvb
    obtain ⟨t₂, g1, g2, g3, g4⟩ := ih h4 (fun b' hb => hv b' (List.mem_cons_of_mem _ hb))
    refine ⟨t₂, ?_, h2.trans g2, g3.trans h3, g4⟩
    have hb : runBatch (fun _ => ord) t b = .ok t₁ := by
      rw [runBatch_maps, h1]
      exact h4.advances b hvb
    unfold batchRound at g1 ⊢
    simp only [iterM, hb, bind, Except.bind]
    exact g1

/-- at rest, any rounds change nothing -/
theorem AtRest.rounds {c : Config K} (hc : c.simultaneous = true) {ord : List Nat → List Nat} (hord : ∀ l, (ord l).Perm l)
    (later : List (List (List Nat))) :
    ∀ {t : State K}, AtRest c ord t → (∀ bs ∈ later, ∀ b ∈ bs, ∀ a ∈ b, a < c.people.length) →
      ∃ t', iterM (fun u bs => batchRound ord bs u) t later = .ok t' ∧ Quiet t t' ∧ t'.idle = t.idle ∧ AtRest c ord t' := by
  induction later with
  | nil => intro t h _; exact ⟨t, rfl, Quiet.refl t, rfl, h⟩
  | cons bs later ih =>
    intro t h hv
    obtain ⟨t₁, h1, h2, h3, h4⟩ := h.batches hc hord bs (hv bs List.mem_cons_self)
    obtain ⟨t₂, g1, g2, g3, g4⟩ := ih h4 (fun b' hb => hv b' (List.mem_cons_of_mem _ hb))
    refine ⟨t₂, ?_, h2.trans g2, g3.trans h3, g4⟩
    simp only [iterM, h1, bind, Except.bind]
    exact g1

/-- two idle rounds lead to a state at rest -/
theorem rest_of_two {c : Config K} (hc : c.simultaneous = true) (h0 : ∀ e ∈ c.people, 0 ≤ e.1) (hb : 0 ≤ c.rs.beta) {ord : List Nat → List Nat}
    (hord : ∀ l, (ord l).Perm l) {s t u : State K} (hs : Reachable c s) {bs bs' : List (List Nat)} (hf : FullRound c.people.length bs)
    (hf' : FullRound c.people.length bs') (h1 : batchRound ord bs s = .ok t) (hi : t.idle = true) (h2 : batchRound ord bs' t = .ok u)
    (hi' : u.idle = true) : AtRest c ord u ∧ Quiet t u := by
  obtain ⟨-, k2, k3, -⟩ := round_ease hc h0 hb hord bs hs hf.agents h1 hi
  have hea : ∀ a < c.people.length, AtEase t a := by
    intro a ha
    obtain ⟨b, hb', hab⟩ := hf.all a ha
    exact k3 b hb' a hab
  obtain ⟨g1, g2⟩ := round_rests hc h0 hb hord bs' k2 hea hf'.nodup hf'.agents h2 hi'
  obtain ⟨-, m2, -, m4⟩ := round_ease hc h0 hb hord bs' k2 hf'.agents h2 hi'
  refine ⟨⟨m2, fun a ha => m4 a (hea a ha), fun a ha => ?_⟩, g1⟩
  obtain ⟨b, hb', hab⟩ := hf'.all a ha
  exact g2 b hb' a hab

/-- C128.  Simultaneous or semi-simultaneous activation, exact arithmetic.  If two consecutive rounds, in which all agents have their turns, are idle,
then all later rounds run without an exception, are idle, and the state keeps looking the same, in whatever batches the agents act. -/
theorem C128_two_idle_rounds {c : Config K} (hc : c.simultaneous = true) (h0 : ∀ e ∈ c.people, 0 ≤ e.1) (hb : 0 ≤ c.rs.beta)
    {ord : List Nat → List Nat} (hord : ∀ l, (ord l).Perm l) {s t u : State K} (hs : Reachable c s) {bs bs' : List (List Nat)}
    (hf : FullRound c.people.length bs) (hf' : FullRound c.people.length bs') (h1 : batchRound ord bs s = .ok t) (hi : t.idle = true)
    (h2 : batchRound ord bs' t = .ok u) (hi' : u.idle = true) (later : List (List (List Nat)))
    (hl : ∀ bs ∈ later, ∀ b ∈ bs, ∀ a ∈ b, a < c.people.length) :
    LooksSame t u ∧ ∃ u', iterM (fun v bs => batchRound ord bs v) u later = .ok u' ∧ LooksSame u u' ∧ u'.idle = true := by
  obtain ⟨hr, hq⟩ := rest_of_two hc h0 hb hord hs hf hf' h1 hi h2 hi'
  obtain ⟨u', k1, k2, k3, -⟩ := hr.rounds hc hord later hl
  have ht := (round_ease hc h0 hb hord bs hs hf.agents h1 hi).2.1
  exact ⟨Calm.looksSame hq.1 (ht.good minUnit_pos).inv.core, u', k1, Calm.looksSame k2.1 (hr.reachable.good minUnit_pos).inv.core, k3.trans hi'⟩

/-- C128.  If the pools record what the agents say and nobody has anything staged, then one idle round is enough. -/
theorem C128_one_idle_round {c : Config K} (hc : c.simultaneous = true) (h0 : ∀ e ∈ c.people, 0 ≤ e.1) (hb : 0 ≤ c.rs.beta)
    {ord : List Nat → List Nat} (hord : ∀ l, (ord l).Perm l) {s t : State K} (hs : Reachable c s) (hbooks : BooksAgree s)
    (hnone : ∀ a < c.people.length, staged s a = none) {bs : List (List Nat)} (hf : FullRound c.people.length bs) (h1 : batchRound ord bs s = .ok t)
    (hi : t.idle = true) (later : List (List (List Nat))) (hl : ∀ bs ∈ later, ∀ b ∈ bs, ∀ a ∈ b, a < c.people.length) :
    LooksSame s t ∧ ∃ u, iterM (fun v bs => batchRound ord bs v) t later = .ok u ∧ LooksSame t u ∧ u.idle = true := by
  have hea : ∀ a < c.people.length, AtEase s a := fun a ha => ⟨Kept.of_books hbooks a, hnone a ha⟩
  obtain ⟨g1, g2⟩ := round_rests hc h0 hb hord bs hs hea hf.nodup hf.agents h1 hi
  obtain ⟨-, m2, -, m4⟩ := round_ease hc h0 hb hord bs hs hf.agents h1 hi
  have hr : AtRest c ord t := by
    refine ⟨m2, fun a ha => m4 a (hea a ha), fun a ha => ?_⟩
    obtain ⟨b, hb', hab⟩ := hf.all a ha
    exact g2 b hb' a hab
  obtain ⟨u, k1, k2, k3, -⟩ := hr.rounds hc hord later hl
  exact ⟨Calm.looksSame g1.1 (hs.good minUnit_pos).inv.core, u, k1, Calm.looksSame k2.1 (hr.reachable.good minUnit_pos).inv.core, k3.trans hi⟩

/-! ### Whole runs -/

variable {R : Type}

/-- the environment of runs with simultaneous or semi-simultaneous activation; round `i` has the batches `bs i` -/
abbrev batchEnv (ord : List Nat → List Nat) (bs : Nat → List (List Nat)) (report : State K → Py R) (conv : Int) (totalPhases : Nat)
    (phases : Nat → PhaseParams K) : Env (State K) R :=
  simEnv (fun i => batchRound ord (bs i)) report conv totalPhases phases (fun _ => none)

theorem batchRound_reachable {c : Config K} {ord : List Nat → List Nat} (hord : ∀ l, (ord l).Perm l) (bs : List (List Nat)) :
    ∀ {s t : State K}, Reachable c s → (∀ b ∈ bs, ∀ a ∈ b, a < c.people.length) → batchRound ord bs s = .ok t → Reachable c t := by
  induction bs with
  | nil => intro s t h _ he; cases he; exact h
  | cons b bs ih =>
    intro s t h hv he
    unfold batchRound at he
    simp only [iterM] at he
    obtain ⟨s₁, h1, h2⟩ := bind_ok he
    refine ih ?_ (fun b' hb' => hv b' (List.mem_cons_of_mem _ hb')) h2
    have hvb := hv b List.mem_cons_self
    rw [runBatch_eq] at h1
    refine reachable_iterM h (fun e he => ?_) h1
    unfold batchEvents stepEvents advanceEvents at he
    rcases List.mem_append.1 he with he | he
    · obtain ⟨⟨a, i⟩, ha, rfl⟩ := List.mem_map.1 he
      exact ⟨hvb a (List.fst_mem_of_mem_zipIdx ha), hord⟩
    · obtain ⟨⟨a, i⟩, ha, rfl⟩ := List.mem_map.1 he
      exact ⟨hvb a (List.fst_mem_of_mem_zipIdx ha), hord⟩

theorem batch_history_reachable {c : Config K} {ord : List Nat → List Nat} (hord : ∀ l, (ord l).Perm l) {bs : Nat → List (List Nat)}
    (hv : ∀ i, ∀ b ∈ bs i, ∀ a ∈ b, a < c.people.length) {report : State K → Py R} {conv : Int} {totalPhases : Nat} {phases : Nat → PhaseParams K}
    {h : List (Round (State K))} {w : State K} (hh : History (batchEnv ord bs report conv totalPhases phases) (initState c) h w) :
    Reachable c w ∧ ∀ r ∈ h, Reachable c r.before := by
  have hend : ∀ s : State K, Reachable c s → Reachable c { s with idle := true } := by
    intro s hr
    exact rounds_reachable hr (es := [Event.roundEnd]) (by simp [Event.Valid]) rfl
  induction hh with
  | start => exact ⟨⟨[], by simp, rfl⟩, by simp⟩
  | @round h w₁ w₂ hh he ih =>
    refine ⟨hend _ (batchRound_reachable hord _ ih.1 (hv _) he), fun r hr => ?_⟩
    rcases List.mem_append.1 hr with hr | hr
    · exact ih.2 r hr
    · rw [List.mem_singleton.1 hr]; exact ih.1
  | @change h w₁ w₂ w₃ hh he hcp ih =>
    refine ⟨hend _ ?_, fun r hr => ?_⟩
    · exact rounds_reachable (batchRound_reachable hord _ ih.1 (hv _) he) (es := [Event.phase (phases (changes h + 1))]) (by simp [Event.Valid]) (by
        change (RSE.changePhase w₂ (phases (changes h + 1))).bind Except.ok = Except.ok w₃
        change RSE.changePhase w₂ (phases (changes h + 1)) = Except.ok w₃ at hcp
        rw [hcp]; rfl)
    · rcases List.mem_append.1 hr with hr | hr
      · exact ih.2 r hr
      · rw [List.mem_singleton.1 hr]; exact ih.1

theorem rearmed {s : State K} (hs : s.idle = true) : ({ s with idle := true } : State K) = s := by
  cases s; simp only at hs; subst hs; rfl

/-- after two idle rounds of the same phase the state is at rest, and stays at rest until the phase ends -/
theorem history_rest {c : Config K} (hc : c.simultaneous = true) (h0 : ∀ e ∈ c.people, 0 ≤ e.1) (hb : 0 ≤ c.rs.beta) {ord : List Nat → List Nat}
    (hord : ∀ l, (ord l).Perm l) {bs : Nat → List (List Nat)} (hf : ∀ i, FullRound c.people.length (bs i)) {report : State K → Py R} {conv : Int}
    {totalPhases : Nat} {phases : Nat → PhaseParams K} {h : List (Round (State K))} {w : State K}
    (hh : History (batchEnv ord bs report conv totalPhases phases) (initState c) h w) (i : Nat) (hi : i + 1 < h.length)
    (h1 : (h[i]).after.idle = true) (h2 : (h[i + 1]).after.idle = true) (hpc : (h[i]).phaseChange = false) (j : Nat) (hij : i + 1 ≤ j) (hj : j < h.length)
    (hphase : ∀ n (hn : n < h.length), i + 1 ≤ n → n < j → (h[n]).phaseChange = false) :
    AtRest c ord (h[j]).after ∧ (h[j]).after.idle = true ∧ LooksSame (h[i]).after (h[j]).after := by
  obtain ⟨k1, -, k3, -, -⟩ := history_chain hh
  obtain ⟨-, hbef⟩ := batch_history_reachable hord (fun i => (hf i).agents) hh
  have hchain : ∀ n (hn : n + 1 < h.length), (h[n]).after.idle = true → (h[n]).phaseChange = false →
      batchRound ord (bs (n + 1)) (h[n]).after = .ok (h[n + 1]).after := by
    intro n hn hid hp
    have g := k1 (n + 1) hn
    rw [k3 n hn hp] at g
    change batchRound ord (bs (n + 1)) { (h[n]).after with idle := true } = _ at g
    rwa [rearmed hid] at g
  induction j with
  | zero => omega
  | succ j ih =>
    by_cases hje : j = i
    · subst hje
      have g1 : batchRound ord (bs j) (h[j]).before = .ok (h[j]).after := k1 j (by omega)
      have hre := hbef (h[j]) (List.getElem_mem _)
      obtain ⟨r, q⟩ := rest_of_two hc h0 hb hord hre (hf j) (hf (j + 1)) g1 h1 (hchain j hi h1 hpc) h2
      have ht := (round_ease hc h0 hb hord (bs j) hre (hf j).agents g1 h1).2.1
      exact ⟨r, h2, Calm.looksSame q.1 (ht.good minUnit_pos).inv.core⟩
    · obtain ⟨r, r1, r2⟩ := ih (by omega) (by omega) (fun n hn ha hb => hphase n hn ha (by omega)) hchain
      have g := hchain j hj r1 (hphase j (by omega) (by omega) (by omega))
      obtain ⟨t', m1, m2, m3, m4⟩ := r.batches hc hord (bs (j + 1)) (hf (j + 1)).agents
      rw [g] at m1
      cases m1
      exact ⟨m4, m3.trans r1, r2.trans (Calm.looksSame m2.1 (r.reachable.good minUnit_pos).inv.core)⟩

/-- C128, for runs (any number of phases).  Within a phase, two consecutive idle rounds are followed by idle rounds only, and the state looks the
same after each of them. -/
theorem C128_idle_stays {c : Config K} (hc : c.simultaneous = true) (h0 : ∀ e ∈ c.people, 0 ≤ e.1) (hb : 0 ≤ c.rs.beta) {ord : List Nat → List Nat}
    (hord : ∀ l, (ord l).Perm l) {bs : Nat → List (List Nat)} (hf : ∀ i, FullRound c.people.length (bs i)) {report : State K → Py R} {conv : Int}
    {totalPhases : Nat} {phases : Nat → PhaseParams K} {h : List (Round (State K))} {w : State K}
    (hh : History (batchEnv ord bs report conv totalPhases phases) (initState c) h w) (i : Nat) (hi : i + 1 < h.length)
    (h1 : (h[i]).Idle (batchEnv ord bs report conv totalPhases phases)) (h2 : (h[i + 1]).Idle (batchEnv ord bs report conv totalPhases phases))
    (j : Nat) (hij : i + 1 ≤ j) (hj : j < h.length) (hphase : ∀ n (hn : n < h.length), i ≤ n → n < j → (h[n]).phaseChange = false) :
    (h[j]).Idle (batchEnv ord bs report conv totalPhases phases) ∧ LooksSame (h[i]).after (h[j]).after := by
  obtain ⟨-, g1, g2⟩ := history_rest hc h0 hb hord hf hh i hi h1 h2 (hphase i (by omega) le_rfl (by omega)) j hij hj
    (fun n hn ha hb => hphase n hn (by omega) hb)
  exact ⟨g1, g2⟩

/-- C128, the final state.  If a run exports "Equilibrium reached: Yes" (with `iterations_after_convergence` at least 2, and after at least two rounds
in its last phase), then its final state is a fixed point: any further rounds, in whatever batches, run without an exception, are idle and leave
everything looking as it does. -/
theorem C128_reported_equilibrium {c : Config K} (hc : c.simultaneous = true) (h0 : ∀ e ∈ c.people, 0 ≤ e.1) (hb : 0 ≤ c.rs.beta)
    {ord : List Nat → List Nat} (hord : ∀ l, (ord l).Perm l) {bs : Nat → List (List Nat)} (hf : ∀ i, FullRound c.people.length (bs i))
    {report : State K → Py R} {conv : Int} (hconv : 2 ≤ conv) {totalPhases : Nat} {phases : Nat → PhaseParams K} {m : Int} (hm : 0 ≤ m) {fuel : Nat}
    {l : Loop (State K) R}
    (hl : Loop.runModel (batchEnv ord bs report conv totalPhases phases) fuel (Loop.init (initState c) m) = .ok l)
    (hyes : l.exports = [true]) (hpiv : ∀ p ∈ l.pivots, p + 1 < l.steps) (later : List (List (List Nat)))
    (hlater : ∀ bs ∈ later, ∀ b ∈ bs, ∀ a ∈ b, a < c.people.length) :
    ∃ t, iterM (fun u bs => batchRound ord bs u) l.world later = .ok t ∧ LooksSame l.world t ∧ t.idle = true := by
  have hl' : Loop.loop (batchEnv ord bs report conv totalPhases phases) fuel (Loop.init (initState c) m) = .ok l := hl
  obtain ⟨h, -, -, -, hh⟩ := (Track.init (batchEnv ord bs report conv totalPhases phases) (initState c) m).loop_max (fun _ => rfl) fuel
    (by simpa [Loop.init] using hm) hl'
  have key : LastIdle (batchEnv ord bs report conv totalPhases phases) h conv → ∀ w, History (batchEnv ord bs report conv totalPhases phases) (initState c) h w →
      l.pivots = pivotsOf h → l.steps = h.length → ∃ r, h.getLast? = some r ∧ r.phaseChange = false ∧ AtRest c ord r.after ∧ r.after.idle = true := by
    rintro ⟨g1, g2⟩ w hw hp hs
    have hlen : 2 ≤ h.length := by omega
    have hno : ∀ n (hn : n < h.length), h.length ≤ n + 2 → (h[n]).phaseChange = false := by
      intro n hn hle
      by_contra hcon
      have hcon : (h[n]).phaseChange = true := by simpa using hcon
      have hmem : n + 1 ∈ pivotsOf h := by
        unfold pivotsOf
        refine List.mem_map.2 ⟨(h[n], n), List.mem_filter.2 ⟨?_, hcon⟩, rfl⟩
        exact List.mem_zipIdx_iff_getElem?.2 (List.getElem?_eq_getElem hn)
      have := hpiv (n + 1) (by rw [hp]; exact hmem)
      omega
    obtain ⟨n, hn⟩ : ∃ n, h.length = n + 2 := ⟨h.length - 2, by omega⟩
    have hr := history_rest hc h0 hb hord hf hw n (by omega) (g2 n (by omega) (by omega)) (g2 (n + 1) (by omega) (by omega)) (hno n (by omega) (by omega))
      (n + 1) le_rfl (by omega) (fun k hk ha hb => by omega)
    exact ⟨h[n + 1], by rw [List.getLast?_eq_getElem?, show h.length - 1 = n + 1 by omega]; exact List.getElem?_eq_getElem (by omega),
      hno (n + 1) (by omega) (by omega), hr.1, hr.2.1⟩
  have fin : AtRest c ord l.world → l.world.idle = true →
      ∃ t, iterM (fun u bs => batchRound ord bs u) l.world later = .ok t ∧ LooksSame l.world t ∧ t.idle = true := by
    intro hr hi
    obtain ⟨u, k1, k2, k3, -⟩ := hr.rounds hc hord later hlater
    exact ⟨u, k1, Calm.looksSame k2.1 (hr.reachable.good minUnit_pos).inv.core, k3.trans hi⟩
  rcases hh with hh | hh
  · have hL : LastIdle (batchEnv ord bs report conv totalPhases phases) h conv := by
      rw [← trailing_spec]
      have := hh.exports
      rw [hyes] at this
      exact of_decide_eq_true (List.singleton_inj.1 this).symm
    obtain ⟨r, g1, g2, g3, g4⟩ := key hL _ hh.hist hh.pivots hh.steps
    obtain ⟨-, -, -, k4, -⟩ := history_chain hh.hist
    have hw : l.world = r.after := by
      have := k4 r (by rw [g1]; rfl) g2
      rw [this]
      exact rearmed g4
    rw [hw] at fin ⊢
    exact fin g3 g4
  · obtain ⟨h₀, w₀, hpre, -⟩ := hh.prefix'
    obtain ⟨r, g1, g2, g3, g4⟩ := key hh.last _ hh.hist hh.pivots hh.steps
    have hr : h.getLast? = some ⟨w₀, l.world, false⟩ := by rw [hpre]; simp
    rw [hr] at g1
    cases g1
    exact fin g3 g4

/-! ### One idle round is not enough -/

/-- four agents; agents 0 and 2 end up delegating to a pool whose operator changes it in the same round -/
def repairCfg : Config ℚ :=
  { demo true with
    rs := { scheme := .cardano, k := 2, beta := 1/2, a0 := 3/10 }
    relThr := 1/100
    people := [(2/21, 2/125, .nonMyopic), (3/7, 3/1000, .myopic), (1/7, 7/250, .nonMyopic), (1/3, 3/250, .nonMyopic)] }

/-- the simulation of four agents with simultaneous activation -/
def repairEnv (conv : Int) : Env (State ℚ) Unit := batchEnv id (fun _ => [[0, 1, 2, 3]]) (fun _ => .ok ()) conv 1 (fun _ => {})

/-- `n` rounds and the ends of the rounds -/
def repairRounds (n : Nat) : Py (State ℚ) :=
  iterM (fun s (_ : Nat) => (roundSimultaneous (fun _ => id) [0, 1, 2, 3] s).map (fun t => { t with idle := true })) (initState repairCfg) (List.range n)

instance saysDec : DecidableEq (Option ℚ × Option (Option ℚ)) := inferInstance

/-- what agent `b` says it delegates to pool `pid`, and what the pool records -/
def saysRecords (s : State ℚ) (b pid : Nat) : Option ℚ × Option (Option ℚ) :=
  (((s.agents.get? b).bind (·.strategy)).bind (fun σ => σ.allocs.get? pid), (s.pools.get? pid).map (fun r => (s.heap r).delegators.get? b))

theorem says_of_view {s : State ℚ} {b pid : Nat} {x : ℚ} (h : (saysRecords s b pid).1 = some x) : Says s b pid x := by
  obtain ⟨σ, k1, k2⟩ := Option.bind_eq_some_iff.1 h
  obtain ⟨ag, k3, k4⟩ := Option.bind_eq_some_iff.1 k1
  exact ⟨ag, σ, k3, k4, k2⟩

theorem records_of_view {s : State ℚ} {b pid : Nat} {o : Option ℚ} (h : (saysRecords s b pid).2 = some o) (x : ℚ) : Records s pid b x ↔ o = some x := by
  obtain ⟨r, k1, k2⟩ := Option.map_eq_some_iff.1 h
  rw [← k2]
  exact ⟨fun ⟨r', k3, k4⟩ => by rw [k1] at k3; cases k3; exact k4, fun hx => ⟨r, k1, hx⟩⟩

/-- C128, what fails with one idle round.  After three rounds agents 0 and 2 say that they delegate 2/21 and 1/7 to pool 7, but the pool does not
record it.  The fourth round is idle, but because planning puts an agent's delegations back, the pool has them (and more stake) afterwards.  In the
fifth round agents move. -/
theorem C128_idle_round_moves_stake : ∃ s t u, repairRounds 3 = .ok s ∧ roundSimultaneous (fun _ => id) [0, 1, 2, 3] s = .ok t ∧
    t.idle = true ∧ Says s 0 7 (2/21) ∧ Says s 2 7 (1/7) ∧ (∀ x, ¬ Records s 7 0 x) ∧ (∀ x, ¬ Records s 7 2 x) ∧
    Records t 7 0 (2/21) ∧ Records t 7 2 (1/7) ∧ totalDelegatedStake s < totalDelegatedStake t ∧
    roundSimultaneous (fun _ => id) [0, 1, 2, 3] t = .ok u ∧ u.idle = false := by
  have key : ((repairRounds 3).bind (fun s => (roundSimultaneous (fun _ => id) [0, 1, 2, 3] s).bind (fun t =>
      (roundSimultaneous (fun _ => id) [0, 1, 2, 3] t).map (fun u => (t.idle, u.idle, decide (totalDelegatedStake s < totalDelegatedStake t),
        [saysRecords s 0 7, saysRecords s 2 7, saysRecords t 0 7, saysRecords t 2 7]))))).toOption =
      some (true, false, true, [(some (2/21), some none), (some (1/7), some none), (some (2/21), some (some (2/21))), (some (1/7), some (some (1/7)))]) := by
    decide +kernel
  cases h1 : repairRounds 3 with
  | error e => rw [h1] at key; cases key
  | ok s =>
    simp only [h1, Except.bind] at key
    cases h2 : roundSimultaneous (fun _ => id) [0, 1, 2, 3] s with
    | error e => rw [h2] at key; cases key
    | ok t =>
      simp only [h2] at key
      cases h3 : roundSimultaneous (fun _ => id) [0, 1, 2, 3] t with
      | error e => rw [h3] at key; cases key
      | ok u =>
        simp only [h3, Except.map, Except.toOption, Option.some.injEq, Prod.mk.injEq, List.cons.injEq, and_true,
          decide_eq_true_eq] at key
        obtain ⟨g1, g2, g7, g3, g4, g5, g6⟩ := key
        refine ⟨s, t, u, rfl, h2, g1, says_of_view (by rw [g3]), says_of_view (by rw [g4]), fun x hx => ?_, fun x hx => ?_,
          (records_of_view (by rw [g5]) _).2 rfl, (records_of_view (by rw [g6]) _).2 rfl, g7, h3, g2⟩
        · have := (records_of_view (by rw [g3]) x).1 hx
          cases this
        · have := (records_of_view (by rw [g4]) x).1 hx
          cases this

/-- C128.  So with `iterations_after_convergence = 1` a run can report an equilibrium that is none: it stops after the idle fourth round and exports
"Yes", but in one more round agents would move.  (With 2 the same simulation takes nine rounds.) -/
theorem C128_reported_too_early : ∃ l u, Loop.runModel (repairEnv 1) 20 (Loop.init (initState repairCfg) 20) = .ok l ∧ l.exports = [true] ∧ l.steps = 4 ∧
    l.pivots = [] ∧ roundSimultaneous (fun _ => id) [0, 1, 2, 3] l.world = .ok u ∧ u.idle = false := by
  have key : ((Loop.runModel (repairEnv 1) 20 (Loop.init (initState repairCfg) 20)).bind (fun l =>
      (roundSimultaneous (fun _ => id) [0, 1, 2, 3] l.world).map (fun u => (l.exports, l.steps, l.pivots, u.idle)))).toOption =
      some ([true], 4, [], false) := by decide +kernel
  cases h1 : Loop.runModel (repairEnv 1) 20 (Loop.init (initState repairCfg) 20) with
  | error e => rw [h1] at key; cases key
  | ok l =>
    simp only [h1, Except.bind] at key
    cases h2 : roundSimultaneous (fun _ => id) [0, 1, 2, 3] l.world with
    | error e => rw [h2] at key; cases key
    | ok u =>
      simp only [h2, Except.map, Except.toOption, Option.some.injEq, Prod.mk.injEq] at key
      obtain ⟨g1, g2, g3, g4⟩ := key
      exact ⟨l, u, rfl, g1, g2, g3, h2, g4⟩

/-- the hypotheses of the theorems about runs are met by the same simulation with `iterations_after_convergence = 2` -/
example : ∃ l, Loop.runModel (repairEnv 2) 20 (Loop.init (initState repairCfg) 20) = .ok l ∧ l.exports = [true] ∧ l.steps = 9 ∧
    (∀ p ∈ l.pivots, p + 1 < l.steps) ∧ (∀ i, FullRound repairCfg.people.length ((fun _ : Nat => [[0, 1, 2, 3]]) i)) ∧
    (∀ e ∈ repairCfg.people, 0 ≤ e.1) ∧ 0 ≤ repairCfg.rs.beta ∧ repairCfg.simultaneous = true := by
  have key : (Loop.runModel (repairEnv 2) 20 (Loop.init (initState repairCfg) 20)).toOption.map (fun l => (l.exports, l.steps, l.pivots)) =
      some ([true], 9, []) := by decide +kernel
  obtain ⟨l, h1, h2⟩ := Option.map_eq_some_iff.1 key
  simp only [Prod.mk.injEq] at h2
  refine ⟨l, toOption_ok h1, h2.1, h2.2.1, by rw [h2.2.2]; simp, fun i => FullRound.simultaneous (List.Perm.refl _), by decide +kernel, by decide +kernel, rfl⟩

/-- two agents -/
def restCfg : Config ℚ :=
  { demo true with
    rs := { scheme := .cardano, k := 2, beta := 1/2, a0 := 3/10 }
    relThr := 1/100
    people := [(6/11, 3/500, .nonMyopic), (5/11, 1/250, .myopic)] }

/-- `n` rounds of two agents, as events -/
def restEvents (n : Nat) : List (Event ℚ) :=
  (List.replicate n [Event.step 0 id, Event.step 1 id, Event.advance 0 id, Event.advance 1 id, Event.roundEnd]).flatten

theorem restEvents_valid (n : Nat) : ∀ e ∈ restEvents n, e.Valid restCfg.people.length := by
  intro e he
  obtain ⟨l, hl, he⟩ := List.mem_flatten.1 he
  rw [List.eq_of_mem_replicate hl] at he
  simp only [List.mem_cons, List.not_mem_nil, or_false] at he
  rcases he with rfl | rfl | rfl | rfl | rfl
  · exact ⟨by decide, fun _ => List.Perm.refl _⟩
  · exact ⟨by decide, fun _ => List.Perm.refl _⟩
  · exact ⟨by decide, fun _ => List.Perm.refl _⟩
  · exact ⟨by decide, fun _ => List.Perm.refl _⟩
  · trivial

/-- The hypotheses of `C128_one_idle_round` and `C128_two_idle_rounds` are met by two agents after two rounds.  Agent 0 has one pool and delegates to a
pool of agent 1, the records agree, nobody has anything staged, and the next two rounds are idle. -/
example : ∃ s t u : State ℚ, Reachable restCfg s ∧ BooksAgree s ∧ (∀ a < restCfg.people.length, staged s a = none) ∧
    demoView s = [(1, 0, 1/2, []), (3, 1, 3/11, [(0, 1/22)]), (4, 1, 5/22, [])] ∧
    batchRound id [[0, 1]] s = .ok t ∧ t.idle = true ∧ batchRound id [[1, 0]] t = .ok u ∧ u.idle = true ∧
    FullRound restCfg.people.length [[0, 1]] ∧ FullRound restCfg.people.length [[1, 0]] ∧
    restCfg.simultaneous = true ∧ (∀ e ∈ restCfg.people, 0 ≤ e.1) ∧ 0 ≤ restCfg.rs.beta := by
  have key : (iterM exec (initState restCfg) (restEvents 2)).toOption.bind (fun s => (batchRound id [[0, 1]] s).toOption.bind (fun t =>
      (batchRound id [[1, 0]] t).toOption.map (fun u =>
        (decide (demoView s = [(1, 0, 1/2, []), (3, 1, 3/11, [(0, 1/22)]), (4, 1, 5/22, [])]), booksOk s, (staged s 0).isNone, (staged s 1).isNone,
          t.idle, u.idle)))) = some (true, true, true, true, true, true) := by decide +kernel
  obtain ⟨s, h0, key⟩ := Option.bind_eq_some_iff.1 key
  obtain ⟨t, h1, key⟩ := Option.bind_eq_some_iff.1 key
  obtain ⟨u, h2, key⟩ := Option.map_eq_some_iff.1 key
  simp only [Prod.mk.injEq, decide_eq_true_eq, Option.isNone_iff_eq_none] at key
  refine ⟨s, t, u, ⟨_, restEvents_valid 2, toOption_ok h0⟩, booksOk_spec key.2.1, ?_, key.1, toOption_ok h1, key.2.2.2.2.1, toOption_ok h2,
    key.2.2.2.2.2, FullRound.simultaneous (List.Perm.refl _), FullRound.simultaneous (by decide), rfl, by decide +kernel, by decide +kernel⟩
  intro a ha
  have ha : a < 2 := ha
  rcases (by omega : a = 0 ∨ a = 1) with rfl | rfl
  · exact key.2.2.1
  · exact key.2.2.2.1

end RSE.Props
