import Verif.Lemmas.Firm
import Verif.Lemmas.NoDrift
import Verif.Props.Equilibrium
import Verif.Props.RunFloats

/-!
# C129: idle rounds on binary64

An agent that plans takes its delegations out of the pools and puts them back.  In binary64 this can change the stakes of the pools
(`C96_planning_disturbs`), so that C80 - an idle round is a fixed point - does not hold as it stands.  But the change is by one float at most, to a
float with an even significand, and such a stake does not change again: round-half-to-even brings it back.  So every pool is disturbed at most once
until somebody moves.
-/

set_option linter.unusedSectionVars false
set_option exponentiation.threshold 2000

namespace RSE.Props

open RSE

/-- the stake of every open pool is at least each of its delegations -/
def Covers (s : State B64) : Prop :=
  ∀ pid r, s.pools.get? pid = some r → 0 ≤ (s.heap r).stake ∧ ∀ e ∈ (s.heap r).delegators, e.2 ≤ (s.heap r).stake

/-- from a float with an odd significand to a neighbour, which has an even one -/
def Nudged (x z : B64) : Prop := ¬ EvenFloat x.1 ∧ EvenFloat z.1 ∧ Adjacent x.1 z.1

/-- taking out and putting back a delegation of the pool moves its stake at most once -/
def Holds (p : Pool B64) : Prop :=
  0 ≤ p.stake.1 ∧ ((∀ e ∈ p.delegators, e.2.1 ≤ p.stake.1) ∨ (EvenFloat p.stake.1 ∧ ∀ e ∈ p.delegators, e.2.1 ≤ 2 * p.stake.1))

theorem fits_val (x : B64) : Fits x.1 := by have := fits_round64 x.1; rwa [x.2] at this

theorem back_val (x y : B64) : (back x y).1 = round64 (round64 (x.1 - y.1) + y.1) := by
  have h : (x - y + 0 : B64).1 = (x - y).1 := by
    change round64 ((x - y).1 + 0) = _
    rw [add_zero]; exact (x - y).2
  change round64 ((x - y + 0 : B64).1 + y.1) = _
  rw [h]; rfl

theorem back_even {x y : B64} (h : EvenFloat x.1) (h0 : 0 ≤ y.1) (hle : y.1 ≤ 2 * x.1) : back x y = x :=
  Subtype.ext (by rw [back_val]; exact h.back (fits_val y) h0 hle)

/-- once: nothing changes, or the stake is nudged; and then nothing changes any more -/
theorem back_nudged {x y : B64} (hx : 0 ≤ x.1) (hy : 0 ≤ y.1) (hle : y.1 ≤ x.1 ∨ (EvenFloat x.1 ∧ y.1 ≤ 2 * x.1)) :
    (back x y = x ∨ (Nudged x (back x y) ∧ x.1 ≤ 2 * (back x y).1)) ∧ back (back x y) y = back x y := by
  by_cases hev : EvenFloat x.1
  · have h1 : back x y = x := back_even hev hy (by rcases hle with h | h <;> [linarith; exact h.2])
    rw [h1, h1]; exact ⟨Or.inl rfl, rfl⟩
  · have hle : y.1 ≤ x.1 := hle.resolve_right (fun h => hev h.1)
    rcases back_or_even hx (fits_val x) (fits_val y) hy (by linarith) with h1 | ⟨h1, h2, h3⟩
    · have h1 : back x y = x := Subtype.ext (by rw [back_val]; exact h1)
      rw [h1, h1]; exact ⟨Or.inl rfl, rfl⟩
    · rw [← back_val] at h1 h2 h3
      exact ⟨Or.inr ⟨⟨hev, h1, h3⟩, h2⟩, back_even h1 hy (by linarith)⟩

/-- what an idle turn does to a state -/
structure Stirred (s s' : State B64) : Prop where
  eq : s' = { s with heap := s'.heap, rankM := s'.rankM, next := s'.next, idSeq := s'.idSeq }
  next_le : s.next ≤ s'.next
  idSeq_le : s.idSeq ≤ s'.idSeq
  same : ∀ r < s.next, SamePool (s.heap r) (s'.heap r)
  dels : ∀ r < s.next, ∀ b, (s'.heap r).delegators.get? b = (s.heap r).delegators.get? b
  closed : ∀ r < s.next, (∀ pid, s.pools.get? pid ≠ some r) → s'.heap r = s.heap r
  stake : ∀ pid r, s.pools.get? pid = some r → (s'.heap r).stake = (s.heap r).stake ∨
    (Nudged (s.heap r).stake (s'.heap r).stake ∧ (s.heap r).stake.1 ≤ 2 * (s'.heap r).stake.1)

theorem Stirred.pools {s s' : State B64} (h : Stirred s s') : s'.pools = s.pools := by rw [h.eq]

theorem Stirred.refl (s : State B64) : Stirred s s :=
  ⟨rfl, le_rfl, le_rfl, fun _ _ => SamePool.refl _, fun _ _ _ => rfl, fun _ _ _ => rfl, fun _ _ _ => Or.inl rfl⟩

theorem Stirred.trans {s t u : State B64} (h : Stirred s t) (g : Stirred t u) : Stirred s u := by
  refine ⟨by rw [g.eq, h.eq], h.next_le.trans g.next_le, h.idSeq_le.trans g.idSeq_le, fun r hr => (h.same r hr).trans (g.same r (by have := h.next_le; omega)),
    fun r hr b => (g.dels r (by have := h.next_le; omega) b).trans (h.dels r hr b), fun r hr hc => ?_, fun pid r hp => ?_⟩
  · rw [g.closed r (by have := h.next_le; omega) (by rw [h.pools]; exact hc), h.closed r hr hc]
  · have g1 := g.stake pid r (by rw [h.pools]; exact hp)
    rcases h.stake pid r hp with h1 | ⟨h1, h2⟩
    · rw [h1] at g1; exact g1
    · rcases g1 with g1 | ⟨g1, -⟩
      · rw [g1]; exact Or.inr ⟨h1, h2⟩
      · exact absurd h1.2.1 g1.1

theorem Stirred.mem {n m : Nat} {s s' : State B64} (h : Stirred s s') (hc : Core n s) (hc' : Core m s') {r : Ref} (hr : r < s.next) (e : Nat × B64) :
    e ∈ (s'.heap r).delegators ↔ e ∈ (s.heap r).delegators := by
  constructor
  · intro he
    refine Dict.mem_of_get? ?_
    rw [← h.dels r hr]
    exact Dict.get?_of_mem (hc'.delNodup r) he
  · intro he
    refine Dict.mem_of_get? ?_
    rw [h.dels r hr]
    exact Dict.get?_of_mem (hc.delNodup r) he

theorem Stirred.holds {n m : Nat} {s s' : State B64} (h : Stirred s s') (hc : Core n s) (hc' : Core m s')
    (hH : ∀ pid r, s.pools.get? pid = some r → Holds (s.heap r)) : ∀ pid r, s'.pools.get? pid = some r → Holds (s'.heap r) := by
  intro pid r hp
  rw [h.pools] at hp
  have hm := h.mem hc hc' (hc.poolRef _ _ hp).1
  obtain ⟨h0, hH⟩ := hH pid r hp
  rcases h.stake pid r hp with h1 | ⟨h1, h2⟩
  · unfold Holds
    rw [h1]
    refine ⟨h0, ?_⟩
    rcases hH with hH | hH
    · exact Or.inl (fun e he => hH e ((hm e).1 he))
    · exact Or.inr ⟨hH.1, fun e he => hH.2 e ((hm e).1 he)⟩
  · have hH := hH.resolve_right (fun h => h1.1 h.1)
    refine ⟨by linarith, Or.inr ⟨h1.2.1, fun e he => ?_⟩⟩
    have := hH e ((hm e).1 he)
    linarith

/-- what is delegated is not negative -/
theorem dels_nonneg {c : Config B64} {s : State B64} (h : Reachable c s) (hc : c.simultaneous = false) {pid : Nat} {r : Ref} (hp : s.pools.get? pid = some r)
    {b : Nat} {y : B64} (hy : (s.heap r).delegators.get? b = some y) : 0 ≤ y.1 := by
  have hmin := RoundedArith.minUnit_pos (F := B64)
  have hb := ((h.good hmin).seq hc).1.books
  rw [hb.agree pid r hp] at hy
  exact le_of_lt (hmin.trans_le (hb.good _ _ _ hy).1)

/-- who is steady stays steady -/
theorem Stirred.steady {c : Config B64} (hc : c.simultaneous = false) {s s' : State B64} (h : Stirred s s') (hs : Reachable c s) (hs' : Reachable c s')
    (hH : ∀ pid r, s.pools.get? pid = some r → Holds (s.heap r)) {b : Nat} (hb : Steady s b) : Steady s' b := by
  have hmin := RoundedArith.minUnit_pos (F := B64)
  have hcore := (hs.good hmin).inv.core
  have hcore' := (hs'.good hmin).inv.core
  rcases hb with hb | hb
  · left
    intro pid r y hp hy
    have hH' := h.holds hcore hcore' hH pid r hp
    have hp0 := hp
    rw [h.pools] at hp
    have hr := (hcore.poolRef _ _ hp).1
    have hyn := dels_nonneg hs' hc hp0 hy
    rcases h.stake pid r hp with h1 | ⟨h1, h2⟩
    · rw [h1]
      exact hb pid r y hp (by rw [← h.dels r hr]; exact hy)
    · refine back_even h1.2.1 hyn ?_
      rcases hH'.2 with h3 | h3
      · have h4 : y.1 ≤ (s'.heap r).stake.1 := h3 _ (Dict.mem_of_get? hy)
        have := hH'.1
        linarith
      · exact h3.2 _ (Dict.mem_of_get? hy)
  · right
    intro pid r hp
    rw [h.pools] at hp
    have hs := h.same r (hcore.poolRef _ _ hp).1
    rw [hs.owner, hs.isPrivate]
    exact hb pid r hp

/-- if no stake has changed, nothing that can be seen has -/
theorem Stirred.calm {n m : Nat} {s s' : State B64} (h : Stirred s s') (hc : Core n s) (hc' : Core m s') (hnm : m = n)
    (hst : ∀ pid r, s.pools.get? pid = some r → (s'.heap r).stake = (s.heap r).stake) : Calm s s' := by
  subst hnm
  have hal : ∀ r < s.next, Alike (s.heap r) (s'.heap r) := by
    intro r hrn
    refine ⟨h.same r hrn, ?_⟩
    by_cases hex : ∃ pid, s.pools.get? pid = some r
    · obtain ⟨pid, hpr⟩ := hex
      exact hst pid r hpr
    · push Not at hex
      rw [h.closed r hrn hex]
  have hrm : s'.rankM = s.rankM := by
    refine SKL.eq_of_perm hc'.rankMSorted hc.rankMSorted ?_ hc'.rankM_unique
    refine hc'.rankMPerm.trans (List.Perm.trans (List.Perm.of_eq ?_) hc.rankMPerm.symm)
    have hrs : s'.rs = s.rs := by rw [h.eq]
    unfold rankEntries
    rw [h.pools, hrs]
    congr 1
    apply List.map_congr_left
    intro e he
    rw [(hal e.2 (hc.poolRef _ _ (Dict.get?_of_mem hc.poolsNodup he)).1).keyM]
  refine ⟨?_, h.next_le, hal, fun r hrn => Dict.perm_of_get? (hc.delNodup r) (hc'.delNodup r) (h.dels r hrn)⟩
  have := h.eq
  rw [hrm] at this
  exact this

/-- a turn without a move, as planning -/
theorem turn_plan {c : Config B64} (hc : c.simultaneous = false) {s s' : State B64} (h : Reachable c s) {a : Nat} {ord : List Nat → List Nat}
    (hv : (Event.step (F := B64) a ord).Valid c.people.length) (he : exec s (.step a ord) = .ok s') (hi : s'.idle = true) :
    ∃ ag, s.agents.get? a = some ag ∧ ((ag.profile = .abstainer ∧ s' = s) ∨ ∃ σ, ag.strategy = some σ ∧ planMove ord s ag σ = .ok (s', none)) := by
  have hmin := RoundedArith.minUnit_pos (F := B64)
  have hg := h.good hmin
  have hd := hg.exec hmin hv
  rw [he] at hd
  cases hd.1 with
  | idle _ _ ag ha hp => exact ⟨ag, ha, Or.inl ⟨hp, rfl⟩⟩
  | plan _ _ ag σ oν s₁ _ ha hp hσ hpm hpl hsim ht =>
    have hn : oν = none := by
      rcases hsim with h1 | h1
      · rw [hg.fixed.simultaneous] at h1
        have : c.simultaneous = true := h1
        rw [hc] at this; cases this
      · exact h1
    subst hn
    have hnew := (hg.seq hc).2 a ag ha
    have hid := hg.inv.core.agentId a ag ha
    have heq : s' = s₁ := by
      rw [hpl.eq]
      have h2 : ({ ag with newStrategy := none } : Agent B64) = ag := by rw [← hnew]
      rw [h2]
      unfold State.setAgent
      rw [hid, Dict.set_same (by rw [hpl.planned.agents]; exact ha)]
    rw [heq]
    exact ⟨ag, ha, Or.inr ⟨σ, hσ, hpm⟩⟩
  | move => cases hi

/-- an idle turn stirs the state, and afterwards the agent is steady -/
theorem turn_stirred {c : Config B64} (hc : c.simultaneous = false) (h0 : ∀ e ∈ c.people, 0 ≤ e.1) (hb : 0 ≤ c.rs.beta) {s s' : State B64} (h : Reachable c s)
    {a : Nat} {ord : List Nat → List Nat} (hv : (Event.step (F := B64) a ord).Valid c.people.length) (he : exec s (.step a ord) = .ok s')
    (hi : s'.idle = true) (hH : ∀ pid r, s.pools.get? pid = some r → Holds (s.heap r)) : Stirred s s' ∧ Steady s' a := by
  have hmin := RoundedArith.minUnit_pos (F := B64)
  have hg := h.good hmin
  have hbooks := (hg.seq hc).1.books
  obtain ⟨ag, ha, ⟨hp, rfl⟩ | ⟨σ, hσ, hpm⟩⟩ := turn_plan hc h hv he hi
  · refine ⟨Stirred.refl _, Or.inl (fun pid r y hpr hy => ?_)⟩
    rw [hbooks.agree pid r hpr] at hy
    unfold allocOf at hy
    rw [ha] at hy
    simp only [(hg.inv.abst a ag ha hp).1, Option.bind_none] at hy
    cases hy
  · have ht := hg.inv.tidy a ag ha
    have hid := hg.inv.core.agentId a ag ha
    have hinf := h.informed hmin hc ha hσ
    rw [← hid] at hinf
    have hown : ∀ pid r, σ.owned.get? pid = some r → s.pools.get? pid = some r := fun pid r hr => (hg.inv.owned ha hσ hr).1
    obtain ⟨c1, p1, r1, -⟩ := (planMove_spec hg.inv.core hv.2 ag (ht.allocs _ hσ) (ht.owned _ hσ) hown).of_ok hpm
    have hrec := hinf.recorded p1 r1
    have mk : (∀ pid r, s.pools.get? pid = some r → (s'.heap r).stake = (s.heap r).stake ∨
        (Nudged (s.heap r).stake (s'.heap r).stake ∧ (s.heap r).stake.1 ≤ 2 * (s'.heap r).stake.1)) → Stirred s s' := fun hst =>
      ⟨p1.eq, p1.next_le, p1.idSeq_le, p1.same, hrec, fun r hr hcl => p1.untouched r hr (fun pid _ => hcl pid), hst⟩
    by_cases hstuck : Stuck s a
    · have hst : Stirred s s' := mk (fun pid r hp => by
        left
        rw [planMove_stuck hv.2 hg.inv.core (by rw [hid]; exact hstuck) (ht.owned _ hσ) hown hpm hp])
      exact ⟨hst, hst.steady hc h (h.next hv he) hH (Or.inr hstuck)⟩
    obtain ⟨s₁, g1, g2, g3⟩ := planMove_reworked hmin hv.2 hinf (ht.owned _ hσ) hown (fun _ => by rw [hid]; exact hstuck) (fun hne => by
      obtain ⟨e, hem⟩ := List.exists_mem_of_ne_nil _ hne
      obtain ⟨e', k1, k2, k3⟩ := (amounts_of_terms hg (h.allocsMin hmin) (h.terms h0 hb).2 ha).1 σ hσ e hem
      have hpers := hg.person ha
      rw [k1] at hpers
      cases hpers
      exact k2.trans k3) hpm
    have key : ∀ pid r, s.pools.get? pid = some r → ((s'.heap r).stake = (s.heap r).stake ∨
        (Nudged (s.heap r).stake (s'.heap r).stake ∧ (s.heap r).stake.1 ≤ 2 * (s'.heap r).stake.1)) ∧
        ∀ y, σ.allocs.get? pid = some y → back (s'.heap r).stake y = (s'.heap r).stake := by
      intro pid r hp
      have k1 := g1 pid r hp
      have k2 := g3 pid r (by rw [g2]; exact hp)
      cases hy : σ.allocs.get? pid with
      | none =>
        rw [hy] at k1 k2
        simp only at k1
        have k3 := k2.firm (fun v hv => by cases hv)
        exact ⟨Or.inl (k3.trans k1), fun y hy => by cases hy⟩
      | some y =>
        rw [hy] at k1 k2
        simp only at k1
        have hdel : (s.heap r).delegators.get? a = some y := by rw [hbooks.agree pid r hp, allocOf_eq ha hσ]; exact hy
        have hyn := dels_nonneg h hc hp hdel
        obtain ⟨hx, hle⟩ := hH pid r hp
        obtain ⟨m1, m2⟩ := back_nudged hx hyn (hle.imp (fun h => h _ (Dict.mem_of_get? hdel)) (fun h => ⟨h.1, h.2 _ (Dict.mem_of_get? hdel)⟩))
        rw [← k1] at m1 m2
        have k3 := k2.firm (fun v hv => by cases hv; exact m2)
        rw [k3]
        exact ⟨m1, fun z hz => by cases hz; exact m2⟩
    refine ⟨mk (fun pid r hp => (key pid r hp).1), Or.inl (fun pid r y hp hy => ?_)⟩
    rw [p1.pools] at hp
    refine (key pid r hp).2 y ?_
    rw [hrec r (hg.inv.core.poolRef _ _ hp).1, hbooks.agree pid r hp, allocOf_eq ha hσ] at hy
    exact hy

theorem Covers.holds {s : State B64} (h : Covers s) : ∀ pid r, s.pools.get? pid = some r → Holds (s.heap r) := by
  intro pid r hp
  obtain ⟨h1, h2⟩ := h pid r hp
  exact ⟨h1, Or.inl h2⟩

/-- C129.  Sequential or random activation, binary64.  An agent that has a turn and does not move changes no agent, no delegation and nothing about the
open pools except their stakes.  A stake changes at most to a neighbouring float, and only from an odd significand to an even one. -/
theorem C129_idle_turn {c : Config B64} (hc : c.simultaneous = false) (h0 : ∀ e ∈ c.people, 0 ≤ e.1) (hb : 0 ≤ c.rs.beta) {s s' : State B64} (h : Reachable c s)
    (hcov : Covers s) {a : Nat} {ord : List Nat → List Nat} (hord : ∀ l, (ord l).Perm l) (ha : a < c.people.length)
    (he : exec s (.step a ord) = .ok s') (hi : s'.idle = true) :
    s'.pools = s.pools ∧ s'.agents = s.agents ∧ ∀ pid r, s.pools.get? pid = some r → ∃ ds x, ds.Perm (s.heap r).delegators ∧
      s'.heap r = { s.heap r with delegators := ds, stake := x } ∧ (x = (s.heap r).stake ∨ Nudged (s.heap r).stake x) := by
  have hmin := RoundedArith.minUnit_pos (F := B64)
  have hv : (Event.step (F := B64) a ord).Valid c.people.length := ⟨ha, hord⟩
  obtain ⟨hst, -⟩ := turn_stirred hc h0 hb h hv he hi hcov.holds
  refine ⟨hst.pools, by rw [hst.eq], fun pid r hp => ?_⟩
  have hcore := (h.good hmin).inv.core
  have hr := (hcore.poolRef _ _ hp).1
  refine ⟨(s'.heap r).delegators, (s'.heap r).stake,
    Dict.perm_of_get? (hcore.delNodup r) (((h.next hv he).good hmin).inv.core.delNodup r) (hst.dels r hr), ?_, (hst.stake pid r hp).imp _root_.id And.left⟩
  have hs := hst.same r hr
  have h1 := hs.id; have h2 := hs.owner; have h3 := hs.pledge; have h4 := hs.cost; have h5 := hs.margin; have h6 := hs.pp
  have h7 := hs.des; have h8 := hs.isPrivate
  cases hx : s'.heap r; cases hy : s.heap r
  rw [hx, hy] at h1 h2 h3 h4 h5 h6 h7 h8
  simp_all

/-- turns that end in an idle state began in one -/
theorem iterM_idle {c : Config B64} {ord : List Nat → List Nat} (hord : ∀ l, (ord l).Perm l) (l : List Nat) : ∀ {s t : State B64}, Reachable c s →
    (∀ b ∈ l, b < c.people.length) → iterM exec s (l.map (fun a => Event.step a ord)) = .ok t → t.idle = true → s.idle = true := by
  induction l with
  | nil => intro s₁ t _ _ he hi; cases he; exact hi
  | cons b l ih =>
    intro s₁ t hr hv he hi
    simp only [List.map_cons, iterM] at he
    obtain ⟨s₂, h1, h2⟩ := bind_ok he
    have hvb : (Event.step (F := B64) b ord).Valid c.people.length := ⟨hv b List.mem_cons_self, hord⟩
    exact exec_idle_of RoundedArith.minUnit_pos hr hvb h1 (ih (hr.next hvb h1) (fun b' hb' => hv b' (List.mem_cons_of_mem _ hb')) h2 hi)

/-- idle turns -/
theorem turns_stirred {c : Config B64} (hc : c.simultaneous = false) (h0 : ∀ e ∈ c.people, 0 ≤ e.1) (hb : 0 ≤ c.rs.beta) {ord : List Nat → List Nat}
    (hord : ∀ l, (ord l).Perm l) (turns : List Nat) : ∀ {s t : State B64}, Reachable c s → (∀ pid r, s.pools.get? pid = some r → Holds (s.heap r)) →
      (∀ a ∈ turns, a < c.people.length) → iterM exec s (turns.map (fun a => Event.step a ord)) = .ok t → t.idle = true →
      s.idle = true ∧ Stirred s t ∧ Reachable c t ∧ ∀ a, (a ∈ turns ∨ Steady s a) → Steady t a := by
  induction turns with
  | nil => intro s t hs _ _ he hi; cases he; exact ⟨hi, Stirred.refl _, hs, by simp⟩
  | cons a l ih =>
    intro s t hs hH hv he hi
    have hmin := RoundedArith.minUnit_pos (F := B64)
    simp only [List.map_cons, iterM] at he
    obtain ⟨s₁, h1, h2⟩ := bind_ok he
    have hva : (Event.step (F := B64) a ord).Valid c.people.length := ⟨hv a List.mem_cons_self, hord⟩
    have hr1 := hs.next hva h1
    have hi1 : s₁.idle = true := by
      exact iterM_idle hord l hr1 (fun b hb => hv b (List.mem_cons_of_mem _ hb)) h2 hi
    obtain ⟨hst, hsa⟩ := turn_stirred hc h0 hb hs hva h1 hi1 hH
    have hH1 := hst.holds (hs.good hmin).inv.core (hr1.good hmin).inv.core hH
    obtain ⟨-, g1, g2, g3⟩ := ih hr1 hH1 (fun b hb => hv b (List.mem_cons_of_mem _ hb)) h2 hi
    refine ⟨exec_idle_of hmin hs hva h1 hi1, hst.trans g1, g2, fun b hb => ?_⟩
    rcases hb with hb | hb
    · rcases List.mem_cons.1 hb with rfl | hb
      · exact g3 _ (Or.inr hsa)
      · exact g3 b (Or.inl hb)
    · exact g3 b (Or.inr (hst.steady hc hs hr1 hH hb))

/-- every agent is steady, and rests here or in an earlier state that looked the same -/
structure AtRest64 (c : Config B64) (ord : List Nat → List Nat) (t : State B64) : Prop where
  reachable : Reachable c t
  steady : ∀ a < c.people.length, Steady t a
  rests : ∀ a < c.people.length, ∃ s, Reachable c s ∧ Quiet s t ∧ Rests ord s a

theorem AtRest64.step {c : Config B64} (hc : c.simultaneous = false) {ord : List Nat → List Nat} (hord : ∀ l, (ord l).Perm l) {t : State B64}
    (h : AtRest64 c ord t) {a : Nat} (ha : a < c.people.length) :
    ∃ t', exec t (.step a ord) = .ok t' ∧ Quiet t t' ∧ t'.idle = t.idle ∧ AtRest64 c ord t' := by
  have hmin := RoundedArith.minUnit_pos (F := B64)
  obtain ⟨s, hs, hq, hr⟩ := h.rests a ha
  obtain ⟨t', he, hq', hi⟩ := hr.again_of hmin hc hs h.reachable hq hord ha
    (fun ag σ t₁ oν hta hσ hpt => h.reachable.plan_steady hmin hc hta hσ hord (h.steady a ha) hpt)
  have ht' := h.reachable.next (ev := .step a ord) ⟨ha, hord⟩ he
  refine ⟨t', he, hq', hi, ht', fun b hb => (h.steady b hb).of_calm hmin h.reachable ht' hq'.1, fun b hb => ?_⟩
  obtain ⟨s', h1, h2, h3⟩ := h.rests b hb
  exact ⟨s', h1, h2.trans hq', h3⟩

theorem AtRest64.steps {c : Config B64} (hc : c.simultaneous = false) {ord : List Nat → List Nat} (hord : ∀ l, (ord l).Perm l) (turns : List Nat) :
    ∀ {t : State B64}, AtRest64 c ord t → (∀ a ∈ turns, a < c.people.length) →
      ∃ t', iterM exec t (turns.map (fun a => Event.step a ord)) = .ok t' ∧ Quiet t t' ∧ t'.idle = t.idle ∧ AtRest64 c ord t' := by
  induction turns with
  | nil => intro t h _; exact ⟨t, rfl, Quiet.refl t, rfl, h⟩
  | cons a l ih =>
    intro t h hv
    obtain ⟨t₁, h1, h2, h3, h4⟩ := h.step hc hord (hv a List.mem_cons_self)
    obtain ⟨t₂, g1, g2, g3, g4⟩ := ih h4 (fun b hb => hv b (List.mem_cons_of_mem _ hb))
    refine ⟨t₂, ?_, h2.trans g2, g3.trans h3, g4⟩
    simp only [List.map_cons, iterM, h1, bind, Except.bind]
    exact g1

theorem AtRest64.rounds {c : Config B64} (hc : c.simultaneous = false) {ord : List Nat → List Nat} (hord : ∀ l, (ord l).Perm l) (later : List (List Nat)) :
    ∀ {u : State B64}, AtRest64 c ord u → (∀ o ∈ later, ∀ a ∈ o, a < c.people.length) →
      ∃ t, iterM (fun u o => roundSequential (fun _ => ord) o u) u later = .ok t ∧ Quiet u t ∧ t.idle = u.idle := by
  induction later with
  | nil => intro u _ _; exact ⟨u, rfl, Quiet.refl u, rfl⟩
  | cons o os ih =>
    intro u hu hv
    obtain ⟨u₁, h1, h2, h3, h4⟩ := hu.steps hc hord o (hv o List.mem_cons_self)
    obtain ⟨u₂, g1, g2, g3⟩ := ih h4 (fun o' ho' => hv o' (List.mem_cons_of_mem _ ho'))
    refine ⟨u₂, ?_, h2.trans g2, g3.trans h3⟩
    simp only [iterM, round_steps, h1, bind, Except.bind]
    simp only [round_steps] at g1
    exact g1

/-- idle turns that change no stake -/
theorem turns_rest {c : Config B64} (hc : c.simultaneous = false) (h0 : ∀ e ∈ c.people, 0 ≤ e.1) (hb : 0 ≤ c.rs.beta) {ord : List Nat → List Nat}
    (hord : ∀ l, (ord l).Perm l) (turns : List Nat) : ∀ {s t : State B64}, Reachable c s → (∀ pid r, s.pools.get? pid = some r → Holds (s.heap r)) →
      (∀ a ∈ turns, a < c.people.length) → iterM exec s (turns.map (fun a => Event.step a ord)) = .ok t → t.idle = true →
      (∀ pid r, s.pools.get? pid = some r → (t.heap r).stake = (s.heap r).stake) →
      Quiet s t ∧ ∀ a ∈ turns, ∃ s₀, Reachable c s₀ ∧ Quiet s₀ t ∧ Rests ord s₀ a := by
  induction turns with
  | nil => intro s t hs _ _ he hi _; cases he; exact ⟨Quiet.refl _, by simp⟩
  | cons a l ih =>
    intro s t hs hH hv he hi hst
    have hmin := RoundedArith.minUnit_pos (F := B64)
    simp only [List.map_cons, iterM] at he
    obtain ⟨s₁, h1, h2⟩ := bind_ok he
    have hva : (Event.step (F := B64) a ord).Valid c.people.length := ⟨hv a List.mem_cons_self, hord⟩
    have hr1 := hs.next hva h1
    have hcore := (hs.good hmin).inv.core
    have hcore1 := (hr1.good hmin).inv.core
    have hi1 : s₁.idle = true := by
      have := iterM_idle hord l hr1 (fun b hb => hv b (List.mem_cons_of_mem _ hb)) h2 hi
      exact this
    obtain ⟨hS, -⟩ := turn_stirred hc h0 hb hs hva h1 hi1 hH
    have hH1 := hS.holds hcore hcore1 hH
    obtain ⟨-, hS', -, -⟩ := turns_stirred hc h0 hb hord l hr1 hH1 (fun b hb => hv b (List.mem_cons_of_mem _ hb)) h2 hi
    have hst1 : ∀ pid r, s.pools.get? pid = some r → (s₁.heap r).stake = (s.heap r).stake := by
      intro pid r hp
      rcases hS.stake pid r hp with k | ⟨k, -⟩
      · exact k
      · exfalso
        have k2 : (t.heap r).stake = (s₁.heap r).stake := by
          rcases hS'.stake pid r (by rw [hS.pools]; exact hp) with k' | ⟨k', -⟩
          · exact k'
          · exact absurd k.2.1 k'.1
        rw [hst pid r hp] at k2
        rw [← k2] at k
        exact k.1 k.2.1
    have hcalm := hS.calm hcore hcore1 rfl hst1
    have hq : Quiet s s₁ := ⟨hcalm, hS.idSeq_le⟩
    obtain ⟨g1, g2⟩ := ih hr1 hH1 (fun b hb => hv b (List.mem_cons_of_mem _ hb)) h2 hi (by
      intro pid r hp
      rw [hS.pools] at hp
      rw [hst pid r hp, hst1 pid r hp])
    refine ⟨hq.trans g1, fun b hb => ?_⟩
    rcases List.mem_cons.1 hb with rfl | hb
    · obtain ⟨ag, ha, hag⟩ := turn_plan hc hs hva h1 hi1
      refine ⟨s, hs, hq.trans g1, ag, ha, hag.imp And.left (fun ⟨σ, k1, k2⟩ => ⟨σ, s₁, k1, k2⟩)⟩
    · exact g2 b hb

/-- a full idle round that changes no stake -/
theorem rest64_of_unchanged {c : Config B64} (hc : c.simultaneous = false) (h0 : ∀ e ∈ c.people, 0 ≤ e.1) (hb : 0 ≤ c.rs.beta) {ord : List Nat → List Nat}
    (hord : ∀ l, (ord l).Perm l) {s t : State B64} (hs : Reachable c s) (hH : ∀ pid r, s.pools.get? pid = some r → Holds (s.heap r)) {order : List Nat}
    (hfull : ∀ a, a ∈ order ↔ a < c.people.length) (he : roundSequential (fun _ => ord) order s = .ok t) (hi : t.idle = true)
    (hst : ∀ pid r, s.pools.get? pid = some r → (t.heap r).stake = (s.heap r).stake) : AtRest64 c ord t ∧ Quiet s t := by
  rw [round_steps] at he
  obtain ⟨-, -, h2, h3⟩ := turns_stirred hc h0 hb hord order hs hH (fun a ha => (hfull a).1 ha) he hi
  obtain ⟨g1, g2⟩ := turns_rest hc h0 hb hord order hs hH (fun a ha => (hfull a).1 ha) he hi hst
  exact ⟨⟨h2, fun a ha => h3 a (Or.inl ((hfull a).2 ha)), fun a ha => g2 a ((hfull a).2 ha)⟩, g1⟩

/-- a second idle round changes no stake -/
theorem second_unchanged {c : Config B64} (hc : c.simultaneous = false) (h0 : ∀ e ∈ c.people, 0 ≤ e.1) (hb : 0 ≤ c.rs.beta) {ord : List Nat → List Nat}
    (hord : ∀ l, (ord l).Perm l) (turns : List Nat) : ∀ {s t : State B64}, Reachable c s → (∀ pid r, s.pools.get? pid = some r → Holds (s.heap r)) →
      (∀ a ∈ turns, a < c.people.length ∧ Steady s a) → iterM exec s (turns.map (fun a => Event.step a ord)) = .ok t → t.idle = true →
      ∀ pid r, s.pools.get? pid = some r → (t.heap r).stake = (s.heap r).stake := by
  induction turns with
  | nil => intro s t hs _ _ he hi pid r _; cases he; rfl
  | cons a l ih =>
    intro s t hs hH hv he hi pid r hp
    have hmin := RoundedArith.minUnit_pos (F := B64)
    simp only [List.map_cons, iterM] at he
    obtain ⟨s₁, h1, h2⟩ := bind_ok he
    obtain ⟨hlt, hsa⟩ := hv a List.mem_cons_self
    have hva : (Event.step (F := B64) a ord).Valid c.people.length := ⟨hlt, hord⟩
    have hr1 := hs.next hva h1
    have hcore := (hs.good hmin).inv.core
    have hi1 := iterM_idle hord l hr1 (fun b hb => (hv b (List.mem_cons_of_mem _ hb)).1) h2 hi
    obtain ⟨hcalm, -⟩ := turn_idle_of hmin hc hs hva h1 hi1 (fun ag σ s₁ oν ha hσ hpm => hs.plan_steady hmin hc ha hσ hord hsa hpm)
    obtain ⟨hS, -⟩ := turn_stirred hc h0 hb hs hva h1 hi1 hH
    have hH1 := hS.holds hcore (hr1.good hmin).inv.core hH
    rw [ih hr1 hH1 (fun b hb => ⟨(hv b (List.mem_cons_of_mem _ hb)).1, ((hv b (List.mem_cons_of_mem _ hb)).2).of_calm hmin hs hr1 hcalm⟩) h2 hi pid r
      (by rw [hS.pools]; exact hp)]
    exact (hcalm.alike r (hcore.poolRef _ _ hp).1).stake

/-- C129.  An idle round of all agents that leaves the stakes of the open pools as they were is a fixed point: all later rounds run without an exception,
are idle, and the state keeps looking the same, in whatever orders the agents act. -/
theorem C129_idle_unchanged {c : Config B64} (hc : c.simultaneous = false) (h0 : ∀ e ∈ c.people, 0 ≤ e.1) (hb : 0 ≤ c.rs.beta) {ord : List Nat → List Nat}
    (hord : ∀ l, (ord l).Perm l) {s t : State B64} (hs : Reachable c s) (hcov : Covers s) {order : List Nat}
    (hfull : ∀ a, a ∈ order ↔ a < c.people.length) (he : roundSequential (fun _ => ord) order s = .ok t) (hi : t.idle = true)
    (hst : ∀ pid r, s.pools.get? pid = some r → (t.heap r).stake = (s.heap r).stake) (later : List (List Nat))
    (hl : ∀ o ∈ later, ∀ a ∈ o, a < c.people.length) :
    LooksSame s t ∧ ∃ t', iterM (fun u o => roundSequential (fun _ => ord) o u) t later = .ok t' ∧ LooksSame t t' ∧ t'.idle = true := by
  have hmin := RoundedArith.minUnit_pos (F := B64)
  obtain ⟨hr, hq⟩ := rest64_of_unchanged hc h0 hb hord hs hcov.holds hfull he hi hst
  obtain ⟨t', h1, h2, h3⟩ := hr.rounds hc hord later hl
  exact ⟨Calm.looksSame hq.1 (hs.good hmin).inv.core, t', h1, Calm.looksSame h2.1 (hr.reachable.good hmin).inv.core, h3.trans hi⟩

/-- two idle rounds: the second one leaves the state as it is, and the simulation rests -/
theorem rest64_of_two {c : Config B64} (hc : c.simultaneous = false) (h0 : ∀ e ∈ c.people, 0 ≤ e.1) (hb : 0 ≤ c.rs.beta) {ord : List Nat → List Nat}
    (hord : ∀ l, (ord l).Perm l) {s t u : State B64} (hs : Reachable c s) (hcov : Covers s) {order order' : List Nat}
    (hfull : ∀ a, a ∈ order ↔ a < c.people.length) (hfull' : ∀ a, a ∈ order' ↔ a < c.people.length)
    (h1 : roundSequential (fun _ => ord) order s = .ok t) (hi : t.idle = true) (h2 : roundSequential (fun _ => ord) order' t = .ok u)
    (hi' : u.idle = true) : Reachable c t ∧ AtRest64 c ord u ∧ Quiet t u := by
  have hmin := RoundedArith.minUnit_pos (F := B64)
  have h1' := h1
  rw [round_steps] at h1'
  obtain ⟨-, k1, k2, k3⟩ := turns_stirred hc h0 hb hord order hs hcov.holds (fun a ha => (hfull a).1 ha) h1' hi
  have hH := k1.holds (hs.good hmin).inv.core (k2.good hmin).inv.core hcov.holds
  have h2' := h2
  rw [round_steps] at h2'
  have hst := second_unchanged hc h0 hb hord order' k2 hH
    (fun a ha => ⟨(hfull' a).1 ha, k3 a (Or.inl ((hfull a).2 ((hfull' a).1 ha)))⟩) h2' hi'
  exact ⟨k2, rest64_of_unchanged hc h0 hb hord k2 hH hfull' h2 hi' hst⟩

/-- C129.  If two consecutive rounds, in which all agents have their turns, are idle, then the second one leaves the state looking as it did, and all later
rounds run without an exception, are idle, and the state keeps looking the same, in whatever orders the agents act. -/
theorem C129_two_idle_rounds {c : Config B64} (hc : c.simultaneous = false) (h0 : ∀ e ∈ c.people, 0 ≤ e.1) (hb : 0 ≤ c.rs.beta) {ord : List Nat → List Nat}
    (hord : ∀ l, (ord l).Perm l) {s t u : State B64} (hs : Reachable c s) (hcov : Covers s) {order order' : List Nat}
    (hfull : ∀ a, a ∈ order ↔ a < c.people.length) (hfull' : ∀ a, a ∈ order' ↔ a < c.people.length)
    (h1 : roundSequential (fun _ => ord) order s = .ok t) (hi : t.idle = true) (h2 : roundSequential (fun _ => ord) order' t = .ok u)
    (hi' : u.idle = true) (later : List (List Nat)) (hl : ∀ o ∈ later, ∀ a ∈ o, a < c.people.length) :
    LooksSame t u ∧ ∃ u', iterM (fun v o => roundSequential (fun _ => ord) o v) u later = .ok u' ∧ LooksSame u u' ∧ u'.idle = true := by
  have hmin := RoundedArith.minUnit_pos (F := B64)
  obtain ⟨hrt, hr, hq⟩ := rest64_of_two hc h0 hb hord hs hcov hfull hfull' h1 hi h2 hi'
  obtain ⟨u', k1, k2, k3⟩ := hr.rounds hc hord later hl
  exact ⟨Calm.looksSame hq.1 (hrt.good hmin).inv.core, u', k1, Calm.looksSame k2.1 (hr.reachable.good hmin).inv.core, k3.trans hi'⟩

/-! ### Whole runs -/

/-- C129, when pools cover their delegations: if pledges exceed what rounding can do in `m` rounds (C124), the stake of every open pool is at least each of
its delegations. -/
theorem C129_covers {c : Config B64} {m : Nat} (h : FloatsOK c m) {s : State B64} (hs : ReachedWithin c (8 * c.people.length * m) s) : Covers s := by
  have h0 : ∀ e ∈ c.people, 0 ≤ e.1 := fun e he => (h.people e he).1
  obtain ⟨es, h1, h2, h3⟩ := hs
  have hr : ReachableSinglePhase c s := ⟨es, h1, h2⟩
  have hR := Reachable.of_single hr
  have hle := runDrift_ge h0 h3
  have hD : 0 ≤ runDrift c m := (driftBound_nonneg h0 es).trans hle
  have hback := hr.backed (solid_of h.beta h.extra h.people hD h.pledges h.pays)
  have hm : (es.map rounds64).sum ≤ 2 ^ 52 := by
    have := h.few
    have e : 8 * c.people.length * m = 8 * (c.people.length * m) := by ring
    omega
  intro pid r hp
  have k1 := C103_linear h0 h.beta.le (fun ev hev => (h1 ev hev).1) hm h2 hp
  have k2 : (es.map rounds64).sum * (2 : ℚ) ^ (-51 : Int) * allStake c < (s.heap r).pledge.1 := hle.trans_lt (hback.pledge _ _ hp)
  have hg := driftOK_graded h0
  have hd := run_graded hg h0 h.beta.le es (n := 0) (Reachable.init c) (fun _ => hg.blank) (fun ev hev => (h1 ev hev).1) h2 r
  have hnn : ∀ e ∈ (s.heap r).delegators, (0 : ℚ) ≤ e.2.1 := fun e he => by
    obtain ⟨p, -, k, -⟩ := hd.amounts e he
    exact le_of_lt (lt_of_lt_of_le (RoundedArith.minUnit_pos (F := B64)) k)
  rw [abs_le] at k1
  unfold fairStake at k1
  have hsum : ∀ e ∈ (s.heap r).delegators, e.2.1 ≤ ((s.heap r).delegators.map (fun e => e.2.1)).sum := fun e he =>
    List.single_le_sum (by
      intro x hx
      obtain ⟨e, he, rfl⟩ := List.mem_map.1 hx
      exact hnn e he) _ (List.mem_map_of_mem he)
  have hpos : 0 ≤ ((s.heap r).delegators.map (fun e => e.2.1)).sum := List.sum_nonneg (by
    intro x hx
    obtain ⟨e, he, rfl⟩ := List.mem_map.1 hx
    exact hnn e he)
  refine ⟨?_, fun e he => ?_⟩
  · rw [B64.le_def]
    change (0 : ℚ) ≤ _
    linarith [k1.1]
  · rw [B64.le_def]
    have := hsum e he
    linarith [k1.1]

variable {R : Type}

theorem rounds64_order (ord : List Nat → List Nat) (l : List Nat) : ((l.map (fun a => Event.step (F := B64) a ord)).map rounds64).sum = 8 * l.length := by
  induction l with
  | nil => rfl
  | cons a l ih => rw [List.map_cons, List.map_cons, List.sum_cons, ih, List.length_cons]; simp only [rounds64]; omega

/-- the states of a run before the first change of phase -/
theorem history_within {c : Config B64} {ord : List Nat → List Nat} (hord : ∀ l, (ord l).Perm l) {order : Nat → List Nat}
    (hperm : ∀ i, (order i).Perm (List.range c.people.length)) {report : State B64 → Py R} {conv : Int} {totalPhases : Nat} {phases : Nat → PhaseParams B64}
    {h : List (Round (State B64))} {w : State B64} (hh : History (seqEnv ord order report conv totalPhases phases) (initState c) h w) (i : Nat) (hi : i < h.length)
    (hphase : ∀ n (hn : n < h.length), n < i → (h[n]).phaseChange = false) : ReachedWithin c (8 * c.people.length * i) (h[i]).before := by
  obtain ⟨k1, k2, k3, -, -⟩ := history_chain hh
  induction i with
  | zero => rw [k2 hi]; exact ⟨[], by simp, rfl, by simp⟩
  | succ i ih =>
    obtain ⟨es, e1, e2, e3⟩ := ih (by omega) (fun n hn hlt => hphase n hn (by omega))
    have g := k1 i (by omega)
    have g : roundSequential (fun _ => ord) (order i) (h[i]).before = .ok (h[i]).after := g
    rw [round_steps] at g
    rw [k3 i hi (hphase i (by omega) (by omega))]
    refine ⟨es ++ ((order i).map (fun a => Event.step a ord) ++ [.roundEnd]), ?_, ?_, ?_⟩
    · intro e he
      rcases List.mem_append.1 he with he | he
      · exact e1 e he
      rcases List.mem_append.1 he with he | he
      · obtain ⟨a, ha, rfl⟩ := List.mem_map.1 he
        exact ⟨⟨List.mem_range.1 ((hperm i).mem_iff.1 ha), hord⟩, fun p => by simp⟩
      · rw [List.mem_singleton] at he; subst he; exact ⟨trivial, fun p => by simp⟩
    · rw [iterM_append, e2]
      change iterM exec (h[i]).before _ = _
      rw [iterM_append, g]; rfl
    · rw [List.map_append, List.sum_append, List.map_append, List.sum_append, rounds64_order, (hperm i).length_eq, List.length_range, Nat.mul_succ]
      simp [rounds64]
      omega

theorem rearmed64 {s : State B64} (hs : s.idle = true) : ({ s with idle := true } : State B64) = s := by
  cases s; simp only at hs; subst hs; rfl

/-- after two idle rounds the state is at rest, and stays at rest -/
theorem history_rest64 {c : Config B64} (hc : c.simultaneous = false) {m : Nat} (hF : FloatsOK c m) {ord : List Nat → List Nat} (hord : ∀ l, (ord l).Perm l)
    {order : Nat → List Nat} (hperm : ∀ i, (order i).Perm (List.range c.people.length)) {report : State B64 → Py R} {conv : Int} {totalPhases : Nat}
    {phases : Nat → PhaseParams B64} {h : List (Round (State B64))} {w : State B64}
    (hh : History (seqEnv ord order report conv totalPhases phases) (initState c) h w) (hlen : h.length ≤ m) (i : Nat) (hi : i + 1 < h.length)
    (h1 : (h[i]).after.idle = true) (h2 : (h[i + 1]).after.idle = true) (j : Nat) (hij : i + 1 ≤ j) (hj : j < h.length)
    (hphase : ∀ n (hn : n < h.length), n < j → (h[n]).phaseChange = false) :
    AtRest64 c ord (h[j]).after ∧ (h[j]).after.idle = true ∧ LooksSame (h[i]).after (h[j]).after := by
  have hmin := RoundedArith.minUnit_pos (F := B64)
  have hfull : ∀ i a, a ∈ order i ↔ a < c.people.length := fun i a => by rw [(hperm i).mem_iff, List.mem_range]
  have h0 : ∀ e ∈ c.people, 0 ≤ e.1 := fun e he => (hF.people e he).1
  obtain ⟨k1, -, k3, -, -⟩ := history_chain hh
  have hchain : ∀ n (hn : n + 1 < h.length), (h[n]).after.idle = true → (h[n]).phaseChange = false →
      roundSequential (fun _ => ord) (order (n + 1)) (h[n]).after = .ok (h[n + 1]).after := by
    intro n hn hid hp
    have g := k1 (n + 1) hn
    rw [k3 n hn hp] at g
    change roundSequential (fun _ => ord) (order (n + 1)) { (h[n]).after with idle := true } = _ at g
    rwa [rearmed64 hid] at g
  induction j with
  | zero => omega
  | succ j ih =>
    by_cases hje : j = i
    · subst hje
      have g1 : roundSequential (fun _ => ord) (order j) (h[j]).before = .ok (h[j]).after := k1 j (by omega)
      obtain ⟨es, e1, e2, e3⟩ := history_within hord hperm hh j (by omega) (fun n hn hlt => hphase n hn (by omega))
      have hcov : Covers (h[j]).before := C129_covers hF ⟨es, e1, e2, e3.trans (Nat.mul_le_mul_left _ (by omega))⟩
      have hre : Reachable c (h[j]).before := Reachable.of_single ⟨es, e1, e2⟩
      obtain ⟨rt, r, q⟩ := rest64_of_two hc h0 hF.beta.le hord hre hcov (hfull j) (hfull (j + 1)) g1 h1
        (hchain j hi h1 (hphase j (by omega) (by omega))) h2
      exact ⟨r, h2, Calm.looksSame q.1 (rt.good hmin).inv.core⟩
    · obtain ⟨r, r1, r2⟩ := ih (by omega) (by omega) (fun n hn hlt => hphase n hn (by omega)) hchain
      have g := hchain j hj r1 (hphase j (by omega) (by omega))
      rw [round_steps] at g
      obtain ⟨t', m1, m2, m3, m4⟩ := r.steps hc hord (order (j + 1)) (fun a ha => (hfull _ a).1 ha)
      rw [g] at m1
      cases m1
      exact ⟨m4, m3.trans r1, r2.trans (Calm.looksSame m2.1 (r.reachable.good hmin).inv.core)⟩

/-- C129, for runs.  In the first phase, two consecutive idle rounds are followed by idle rounds only, and the state looks the same after each of them. -/
theorem C129_idle_stays {c : Config B64} (hc : c.simultaneous = false) {m : Nat} (hF : FloatsOK c m) {ord : List Nat → List Nat} (hord : ∀ l, (ord l).Perm l)
    {order : Nat → List Nat} (hperm : ∀ i, (order i).Perm (List.range c.people.length)) {report : State B64 → Py R} {conv : Int} {totalPhases : Nat}
    {phases : Nat → PhaseParams B64} {h : List (Round (State B64))} {w : State B64}
    (hh : History (seqEnv ord order report conv totalPhases phases) (initState c) h w) (hlen : h.length ≤ m) (i : Nat) (hi : i + 1 < h.length)
    (h1 : (h[i]).Idle (seqEnv ord order report conv totalPhases phases)) (h2 : (h[i + 1]).Idle (seqEnv ord order report conv totalPhases phases))
    (j : Nat) (hij : i + 1 ≤ j) (hj : j < h.length) (hphase : ∀ n (hn : n < h.length), n < j → (h[n]).phaseChange = false) :
    (h[j]).Idle (seqEnv ord order report conv totalPhases phases) ∧ LooksSame (h[i]).after (h[j]).after :=
  (history_rest64 hc hF hord hperm hh hlen i hi h1 h2 j hij hj hphase).2

/-- C129, the final state.  If a run of one phase exports "Equilibrium reached: Yes" (with `iterations_after_convergence` at least 2), then its final state
is a fixed point: any further rounds, in whatever orders, run without an exception, are idle and leave everything looking as it does. -/
theorem C129_reported_equilibrium {c : Config B64} (hc : c.simultaneous = false) {m : Nat} (hF : FloatsOK c m) {ord : List Nat → List Nat}
    (hord : ∀ l, (ord l).Perm l) {order : Nat → List Nat} (hperm : ∀ i, (order i).Perm (List.range c.people.length)) {report : State B64 → Py R} {conv : Int}
    (hconv : 2 ≤ conv) {totalPhases : Nat} {phases : Nat → PhaseParams B64} {fuel : Nat} {l : Loop (State B64) R}
    (hl : Loop.runModel (seqEnv ord order report conv totalPhases phases) fuel (Loop.init (initState c) m) = .ok l)
    (hyes : l.exports = [true]) (hpiv : l.pivots = []) (later : List (List Nat)) (hlater : ∀ o ∈ later, ∀ a ∈ o, a < c.people.length) :
    ∃ t, iterM (fun u o => roundSequential (fun _ => ord) o u) l.world later = .ok t ∧ LooksSame l.world t ∧ t.idle = true := by
  have hmin := RoundedArith.minUnit_pos (F := B64)
  have hl' : Loop.loop (seqEnv ord order report conv totalPhases phases) fuel (Loop.init (initState c) m) = .ok l := hl
  obtain ⟨h, -, -, hlen, hh⟩ := (Track.init (seqEnv ord order report conv totalPhases phases) (initState c) m).loop_max (fun _ => rfl) fuel
    (by simp [Loop.init]) hl'
  have hlen : h.length ≤ m := by have : (h.length : Int) ≤ m := hlen; omega
  have key : LastIdle (seqEnv ord order report conv totalPhases phases) h conv → ∀ w, History (seqEnv ord order report conv totalPhases phases) (initState c) h w →
      l.pivots = pivotsOf h → l.steps = h.length → ∃ r, h.getLast? = some r ∧ r.phaseChange = false ∧ AtRest64 c ord r.after ∧ r.after.idle = true := by
    rintro ⟨g1, g2⟩ w hw hp hs
    have hlen2 : 2 ≤ h.length := by omega
    have hno : ∀ n (hn : n < h.length), (h[n]).phaseChange = false := by
      intro n hn
      by_contra hcon
      have hcon : (h[n]).phaseChange = true := by simpa using hcon
      have hmem : n + 1 ∈ pivotsOf h := by
        unfold pivotsOf
        refine List.mem_map.2 ⟨(h[n], n), List.mem_filter.2 ⟨?_, hcon⟩, rfl⟩
        exact List.mem_zipIdx_iff_getElem?.2 (List.getElem?_eq_getElem hn)
      rw [← hp, hpiv] at hmem
      cases hmem
    obtain ⟨n, hn⟩ : ∃ n, h.length = n + 2 := ⟨h.length - 2, by omega⟩
    have hr := history_rest64 hc hF hord hperm hw hlen n (by omega) (g2 n (by omega) (by omega)) (g2 (n + 1) (by omega) (by omega))
      (n + 1) le_rfl (by omega) (fun k hk _ => hno k hk)
    exact ⟨h[n + 1], by rw [List.getLast?_eq_getElem?, show h.length - 1 = n + 1 by omega]; exact List.getElem?_eq_getElem (by omega),
      hno (n + 1) (by omega), hr.1, hr.2.1⟩
  have fin : AtRest64 c ord l.world → l.world.idle = true →
      ∃ t, iterM (fun u o => roundSequential (fun _ => ord) o u) l.world later = .ok t ∧ LooksSame l.world t ∧ t.idle = true := by
    intro hr hi
    obtain ⟨u, k1, k2, k3⟩ := hr.rounds hc hord later hlater
    exact ⟨u, k1, Calm.looksSame k2.1 (hr.reachable.good hmin).inv.core, k3.trans hi⟩
  rcases hh with hh | hh
  · have hL : LastIdle (seqEnv ord order report conv totalPhases phases) h conv := by
      rw [← trailing_spec]
      have := hh.exports
      rw [hyes] at this
      exact of_decide_eq_true (List.singleton_inj.1 this).symm
    obtain ⟨r, g1, g2, g3, g4⟩ := key hL _ hh.hist hh.pivots hh.steps
    obtain ⟨-, -, -, k4, -⟩ := history_chain hh.hist
    have hw : l.world = r.after := by
      have := k4 r (by rw [g1]; rfl) g2
      rw [this]
      exact rearmed64 g4
    rw [hw] at fin ⊢
    exact fin g3 g4
  · obtain ⟨h₀, w₀, hpre, -⟩ := hh.prefix'
    obtain ⟨r, g1, g2, g3, g4⟩ := key hh.last _ hh.hist hh.pivots hh.steps
    have hr : h.getLast? = some ⟨w₀, l.world, false⟩ := by rw [hpre]; simp
    rw [hr] at g1
    cases g1
    exact fin g3 g4

/-! ### One idle round is not enough -/

/-- ids, stakes and delegations of the open pools -/
def stakesView (s : State B64) : List (Nat × ℚ × List (Nat × ℚ)) :=
  s.pools.map (fun e => (e.1, (s.heap e.2).stake.1, (s.heap e.2).delegators.map (fun d => (d.1, d.2.1))))

/-- the four agents of `floatArgs` (C125) with sequential activation -/
def idleEnv (conv : Int) : Env (State B64) Unit := seqEnv id (fun _ => List.range 4) (fun _ => .ok ()) conv 1 (fun _ => {})

/-- `n` rounds and the ends of the rounds, as events -/
def fourRounds (n : Nat) : List (Event B64) := (List.replicate n [Event.step 0 id, .step 1 id, .step 2 id, .step 3 id, .roundEnd]).flatten

theorem fourRounds_valid (n : Nat) : ∀ e ∈ fourRounds n, e.Valid 4 := by
  intro e he
  obtain ⟨l, hl, he⟩ := List.mem_flatten.1 he
  rw [List.eq_of_mem_replicate hl] at he
  simp only [List.mem_cons, List.not_mem_nil, or_false] at he
  rcases he with rfl | rfl | rfl | rfl | rfl
  · exact ⟨by decide, fun _ => List.Perm.refl _⟩
  · exact ⟨by decide, fun _ => List.Perm.refl _⟩
  · exact ⟨by decide, fun _ => List.Perm.refl _⟩
  · exact ⟨by decide, fun _ => List.Perm.refl _⟩
  · trivial

/-- the stakes before and after the fourth and the fifth round -/
theorem idle_key : (match construct floatArgs floatDraws with
    | .ok b => (iterM exec (initState b.config) (fourRounds 3)).toOption.bind (fun s => (roundSequential (fun _ => id) [0, 1, 2, 3] s).toOption.bind (fun t =>
        (roundSequential (fun _ => id) [3, 2, 1, 0] t).toOption.map (fun u => decide (t.idle = true ∧ u.idle = true ∧
          stakesView s = [(1, 9007199254740991/18014398509481984, [(2, 3/36028797018963968), (3, 7205759403792779/72057594037927936)]),
            (3, 1/2, [(2, 900719925474099/4503599627370496)])] ∧
          stakesView t = [(1, 1/2, [(2, 3/36028797018963968), (3, 7205759403792779/72057594037927936)]),
            (3, 1/2, [(2, 900719925474099/4503599627370496)])] ∧ b.config.simultaneous = false))))
    | .error _ => none) = some true := by decide +kernel

/-- C129, why C80 is not true as it stands: after three rounds of four agents the fourth round is idle, but it changes the stake of pool 1 by one float,
from `1/2 - 2^-54` to `1/2`.  The fifth round is idle as well, and from then on (`C129_two_idle_rounds`) nothing changes.  The pools cover their delegations:
the conditions of C124 hold for these agents. -/
theorem C129_idle_round_disturbs : ∃ (b : Built B64) (s t u : State B64), construct floatArgs floatDraws = .ok b ∧ FloatsOK b.config 1000000 ∧
    b.config.simultaneous = false ∧ Reachable b.config s ∧ Covers s ∧
    roundSequential (fun _ => id) [0, 1, 2, 3] s = .ok t ∧ t.idle = true ∧ ¬ LooksSame s t ∧
    stakesView s = [(1, 1/2 - (2 : ℚ) ^ (-54 : Int), [(2, 3/36028797018963968), (3, 7205759403792779/72057594037927936)]),
      (3, 1/2, [(2, 900719925474099/4503599627370496)])] ∧
    stakesView t = [(1, 1/2, [(2, 3/36028797018963968), (3, 7205759403792779/72057594037927936)]), (3, 1/2, [(2, 900719925474099/4503599627370496)])] ∧
    roundSequential (fun _ => id) [3, 2, 1, 0] t = .ok u ∧ u.idle = true ∧ LooksSame t u ∧
    ∀ later : List (List Nat), (∀ o ∈ later, ∀ a ∈ o, a < 4) →
      ∃ u', iterM (fun v o => roundSequential (fun _ => id) o v) u later = .ok u' ∧ LooksSame u u' ∧ u'.idle = true := by
  obtain ⟨b, hb, hlen, hF⟩ := floats_constructed
  have key := idle_key
  rw [hb] at key
  obtain ⟨s, h0, key⟩ := Option.bind_eq_some_iff.1 key
  obtain ⟨t, h1, key⟩ := Option.bind_eq_some_iff.1 key
  obtain ⟨u, h2, key⟩ := Option.map_eq_some_iff.1 key
  replace h0 := toOption_ok h0
  replace h1 := toOption_ok h1
  replace h2 := toOption_ok h2
  obtain ⟨k1, k2, k3, k4, k6⟩ := of_decide_eq_true key
  have hval : ∀ e ∈ fourRounds 3, e.Valid b.config.people.length := by rw [hlen]; exact fourRounds_valid 3
  have hs : Reachable b.config s := ⟨_, hval, h0⟩
  have hcov : Covers s := C129_covers hF ⟨fourRounds 3, fun ev hev => ⟨hval ev hev, ?_⟩, h0, ?_⟩
  · have h00 : ∀ e ∈ b.config.people, 0 ≤ e.1 := fun e he => (hF.people e he).1
    have hf1 : ∀ a, a ∈ [0, 1, 2, 3] ↔ a < b.config.people.length := by
      intro a; rw [hlen]; simp only [List.mem_cons, List.not_mem_nil, or_false]; omega
    have hf2 : ∀ a, a ∈ [3, 2, 1, 0] ↔ a < b.config.people.length := by
      intro a; rw [hlen]; simp only [List.mem_cons, List.not_mem_nil, or_false]; omega
    have hall := fun later hl => C129_two_idle_rounds k6 h00 hF.beta.le (ord := id) (fun _ => List.Perm.refl _) hs hcov hf1 hf2 h1 k1 h2 k2 later hl
    refine ⟨b, s, t, u, hb, hF, k6, hs, hcov, h1, k1, ?_, ?_, k4, h2, k2, (hall [] (by simp)).1, fun later hl => (hall later (by rw [hlen]; exact hl)).2⟩
    · intro hsame
      have hst : s.pools.map (fun e => (s.heap e.2).stake.1) = t.pools.map (fun e => (t.heap e.2).stake.1) := by
        have hp : t.pools = s.pools := by rw [hsame.rest]
        rw [hp]
        refine List.map_congr_left (fun e he => ?_)
        obtain ⟨ds, -, hd⟩ := hsame.pool e.1 e.2 (Dict.get?_of_mem (hs.good (RoundedArith.minUnit_pos (F := B64))).inv.core.poolsNodup he)
        rw [hd]
      have e1 : s.pools.map (fun e => (s.heap e.2).stake.1) = (stakesView s).map (fun x => x.2.1) := by unfold stakesView; rw [List.map_map]; rfl
      have e2 : t.pools.map (fun e => (t.heap e.2).stake.1) = (stakesView t).map (fun x => x.2.1) := by unfold stakesView; rw [List.map_map]; rfl
      rw [e1, e2, k3, k4] at hst
      norm_num at hst
    · rw [k3]
      norm_num
  · obtain ⟨l, hl, he⟩ := List.mem_flatten.1 hev
    rw [List.eq_of_mem_replicate hl] at he
    simp only [List.mem_cons, List.not_mem_nil, or_false] at he
    rcases he with rfl | rfl | rfl | rfl | rfl <;> intro p <;> simp
  · rw [hlen]; decide

/-- the hypotheses of `C129_reported_equilibrium` are met: with `iterations_after_convergence = 2` the same simulation reports an equilibrium after five rounds -/
example : ∃ b l, construct floatArgs floatDraws = .ok b ∧ b.config.simultaneous = false ∧ FloatsOK b.config 1000000 ∧
    Loop.runModel (idleEnv 2) 20 (Loop.init (initState b.config) (1000000 : Nat)) = .ok l ∧ l.exports = [true] ∧ l.pivots = [] ∧ l.steps = 5 ∧
    (List.range 4).Perm (List.range b.config.people.length) := by
  obtain ⟨b, hb, hlen, hF⟩ := floats_constructed
  have key : (match construct floatArgs floatDraws with
    | .ok b => (Loop.runModel (idleEnv 2) 20 (Loop.init (initState b.config) (1000000 : Nat))).toOption.map (fun l =>
        (l.exports, l.steps, l.pivots, b.config.simultaneous))
    | .error _ => none) = some ([true], 5, [], false) := by decide +kernel
  rw [hb] at key
  obtain ⟨l, h1, h2⟩ := Option.map_eq_some_iff.1 key
  simp only [Prod.mk.injEq] at h2
  exact ⟨b, l, hb, h2.2.2.2, hF, toOption_ok h1, h2.1, h2.2.2.1, h2.2.1, by rw [hlen]⟩

end RSE.Props
