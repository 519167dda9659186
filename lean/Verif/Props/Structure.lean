import Verif.Lemmas.Ids
import Verif.Spec.Demo

/-!
# C15, C19, C21, C26, C28, C39, C64, C67: the bookkeeping of pools, rankings, delegations and ids

None of these theorems uses a law of arithmetic: `F` can be any linearly ordered type with operations (in particular finite
floating-point numbers), only `MIN_STAKE_UNIT` must be positive.
-/

set_option linter.unusedSectionVars false

namespace RSE.Props

variable {F : Type} [LinearOrder F] [Zero F] [One F] [Add F] [Sub F] [Mul F] [Div F] [Neg F] [NatCast F] [FSum F]

/-- `later s s'`: valid events lead from `s` to `s'` -/
def Later (c : Config F) (s s' : State F) : Prop :=
  ∃ es : List (Event F), (∀ e ∈ es, e.Valid c.people.length) ∧ iterM exec s es = .ok s'

theorem count_some_map {α : Type} [DecidableEq α] (l : List α) (a : α) : (l.map some).count (some a) = l.count a := by
  induction l with
  | nil => rfl
  | cons b t ih => simp [List.count_cons, ih]

/-- C15.  In every state of every simulation, both rankings contain each open pool exactly once, no other pool, and `k + 1` place-holders
(`k` of the constructor). -/
theorem C15_rankings_list_open_pools (hmin : (0 : F) < minUnit) {c : Config F} {s : State F} (h : Reachable c s) :
    (∀ pid r, s.pools.get? pid = some r → s.rank.vals.count (some r) = 1 ∧ s.rankM.vals.count (some r) = 1) ∧
    (∀ r : Ref, (∀ pid, s.pools.get? pid ≠ some r) → some r ∉ s.rank.vals ∧ some r ∉ s.rankM.vals) ∧
    s.rank.vals.count none = c.rs.k + 1 ∧ s.rankM.vals.count none = c.rs.k + 1 := by
  have hc := (h.good hmin).inv.core
  have key : ∀ {κ : Type} {l : List (κ × Option Ref)} {nk : κ} {kf : Pool F → κ}, l.Perm (rankEntries (c.rs.k + 1) nk kf s.pools s.heap) →
      (l.map Prod.snd).Perm (List.replicate (c.rs.k + 1) none ++ s.pools.vals.map some) := by
    intro κ l nk kf hp
    have := hp.map Prod.snd
    simpa [rankEntries, Dict.vals, Function.comp_def] using this
  have cnt : ∀ r : Ref, (List.replicate (c.rs.k + 1) none ++ s.pools.vals.map some).count (some r) = s.pools.vals.count r := by
    intro r
    rw [List.count_append, List.count_replicate, count_some_map]
    simp
  have cntN : (List.replicate (c.rs.k + 1) (none : Option Ref) ++ s.pools.vals.map some).count none = c.rs.k + 1 := by
    rw [List.count_append, List.count_replicate_self, Nat.add_eq_left]
    exact List.count_eq_zero_of_not_mem (by simp)
  refine ⟨fun pid r hr => ?_, fun r hr => ?_, ?_, ?_⟩
  · have h1 := List.count_eq_one_of_mem hc.valsNodup ((mem_vals_iff hc).2 ⟨pid, hr⟩)
    rw [← cnt r] at h1
    exact ⟨((key hc.rankPerm).count_eq _).trans h1, ((key hc.rankMPerm).count_eq _).trans h1⟩
  · have h1 : r ∉ s.pools.vals := fun hm => by obtain ⟨pid, hp⟩ := (mem_vals_iff hc).1 hm; exact hr pid hp
    have h2 : some r ∉ List.replicate (c.rs.k + 1) none ++ s.pools.vals.map some := by simp [h1]
    exact ⟨fun hm => h2 ((key hc.rankPerm).mem_iff.1 hm), fun hm => h2 ((key hc.rankMPerm).mem_iff.1 hm)⟩
  · rw [← cntN]; exact (key hc.rankPerm).count_eq _
  · rw [← cntN]; exact (key hc.rankMPerm).count_eq _

/-- the order in which two pools must appear: by `(-desirability, -potential_profit, id)` of their current attributes -/
def Before (s : State F) : Option Ref → Option Ref → Prop
  | some r, some r' => poolKey (s.heap r) ≤ poolKey (s.heap r')
  | some r, none => poolKey (s.heap r) ≤ noneKey
  | none, some r => noneKey ≤ poolKey (s.heap r)
  | none, none => True

/-- ... and for the myopic ranking: by `(-myopic desirability, id)` under the current reward scheme -/
def BeforeM (s : State F) : Option Ref → Option Ref → Prop
  | some r, some r' => poolKeyM s.rs (s.heap r) ≤ poolKeyM s.rs (s.heap r')
  | some r, none => poolKeyM s.rs (s.heap r) ≤ noneKeyM
  | none, some r => noneKeyM ≤ poolKeyM s.rs (s.heap r)
  | none, none => True

theorem rankings_in_order (hmin : (0 : F) < minUnit) {c : Config F} {s : State F} (h : Reachable c s) :
    s.rank.vals.Pairwise (Before s) ∧ s.rankM.vals.Pairwise (BeforeM s) := by
  have hc := (h.good hmin).inv.core
  constructor
  · unfold SKL.vals
    rw [List.pairwise_map]
    have h1 : s.rank.Pairwise (fun a b => a.1 ≤ b.1) := hc.rankSorted
    refine h1.imp_of_mem ?_
    rintro ⟨k1, e1⟩ ⟨k2, e2⟩ m1 m2 hle
    have key : ∀ {k : Key F} {e : Option Ref}, (k, e) ∈ s.rank → k = (match e with | some r => poolKey (s.heap r) | none => noneKey) := by
      intro k e hm
      cases e with
      | some r => exact (hc.of_mem_rank hm).2
      | none =>
        rw [hc.rankPerm.mem_iff] at hm
        rcases List.mem_append.1 hm with hm | hm
        · have := List.eq_of_mem_replicate hm; cases this; rfl
        · obtain ⟨_, _, he⟩ := List.mem_map.1 hm; cases he
    have := key m1; have := key m2
    simp only at hle
    cases e1 <;> cases e2 <;> simp_all [Before]
  · unfold SKL.vals
    rw [List.pairwise_map]
    have h1 : s.rankM.Pairwise (fun a b => a.1 ≤ b.1) := hc.rankMSorted
    refine h1.imp_of_mem ?_
    rintro ⟨k1, e1⟩ ⟨k2, e2⟩ m1 m2 hle
    have key : ∀ {k : KeyM F} {e : Option Ref}, (k, e) ∈ s.rankM → k = (match e with | some r => poolKeyM s.rs (s.heap r) | none => noneKeyM) := by
      intro k e hm
      cases e with
      | some r => exact (hc.of_mem_rankM hm).2
      | none =>
        rw [hc.rankMPerm.mem_iff] at hm
        rcases List.mem_append.1 hm with hm | hm
        · have := List.eq_of_mem_replicate hm; cases this; rfl
        · obtain ⟨_, _, he⟩ := List.mem_map.1 hm; cases he
    have := key m1; have := key m2
    simp only at hle
    cases e1 <;> cases e2 <;> simp_all [BeforeM]

/-- what pools are ranked by: `(-desirability, -potential_profit, id)`, and `(0, 0, 0)` for a place-holder -/
def rankedBy (s : State F) : Option Ref → F ×ₗ F ×ₗ Nat
  | some r => toLex (-(s.heap r).des, toLex (-(s.heap r).pp, (s.heap r).id))
  | none => toLex (0, toLex (0, 0))

/-- … and in the myopic ranking: `(-myopic desirability, id)` under the current reward scheme, and 0 for a place-holder -/
def rankedByM (s : State F) : Option Ref → F ×ₗ Nat
  | some r => toLex (-desirability (s.heap r).margin (currentProfit s.rs (s.heap r).stake (s.heap r).pledge (s.heap r).cost), (s.heap r).id)
  | none => toLex (0, 0)

/-- C15.  Both rankings are sorted by the keys that the pools have *now* (not the keys at insertion time). -/
theorem C15_rankings_sorted (hmin : (0 : F) < minUnit) {c : Config F} {s : State F} (h : Reachable c s) :
    s.rank.vals.Pairwise (fun e e' => rankedBy s e ≤ rankedBy s e') ∧ s.rankM.vals.Pairwise (fun e e' => rankedByM s e ≤ rankedByM s e') := by
  obtain ⟨h1, h2⟩ := rankings_in_order hmin h
  refine ⟨h1.imp ?_, h2.imp ?_⟩
  · rintro (_ | r) (_ | r') hb
    · exact le_rfl
    all_goals exact hb
  · rintro (_ | r) (_ | r') hb
    · exact le_rfl
    all_goals exact hb

/-- C15.  No event raises `ValueError` (the exception of `SortedList.remove` and `index`), except the assignment `k = 0` at a phase change. -/
theorem C15_no_ValueError (hmin : (0 : F) < minUnit) {c : Config F} {s : State F} (h : Reachable c s) {ev : Event F}
    (hv : ev.Valid c.people.length) (hk : ∀ p, ev = .phase p → p.k ≠ some 0) : exec s ev ≠ .error .value := by
  intro he
  have := (h.good hmin).exec hmin hv
  rw [he] at this
  rcases this with (((h1 | h1 | h1) | h1) | ⟨-, p, h1, h2⟩)
  · cases h1
  · cases h1
  · cases h1
  · cases h1.1
  · exact hk p h1 h2

/-- C28.  Each open pool is operated by exactly one agent: the owner it names, which lists the very same object. -/
theorem C28_open_pool_has_one_operator (hmin : (0 : F) < minUnit) {c : Config F} {s : State F} (h : Reachable c s) {pid : Nat} {r : Ref}
    (hp : s.pools.get? pid = some r) : (∃! a, Operates s a pid r) ∧ Operates s (s.heap r).owner pid r := by
  have ho := (h.good hmin).inv.own
  have h1 : Operates s (s.heap r).owner pid r := operates_iff.2 ((ho.own_iff _ _ _).2 ⟨hp, rfl⟩)
  exact ⟨⟨_, h1, fun a ha => ((ho.own_iff _ _ _).1 (operates_iff.1 ha)).2.symm⟩, h1⟩

/-- C28.  No agent lists a pool that is not open, nor somebody else's pool, nor an outdated object. -/
theorem C28_operated_pools_are_open (hmin : (0 : F) < minUnit) {c : Config F} {s : State F} (h : Reachable c s) {a pid : Nat} {r : Ref}
    (ho : Operates s a pid r) : s.pools.get? pid = some r ∧ (s.heap r).owner = a ∧ (s.heap r).id = pid := by
  have hg := (h.good hmin).inv
  obtain ⟨h1, h2⟩ := (hg.own.own_iff _ _ _).1 (operates_iff.1 ho)
  exact ⟨h1, h2, (hg.core.poolRef _ _ h1).2.1⟩

/-- C28.  Every owner exists: it is one of the agents the simulation was built with. -/
theorem C28_owner_exists (hmin : (0 : F) < minUnit) {c : Config F} {s : State F} (h : Reachable c s) {pid : Nat} {r : Ref}
    (hp : s.pools.get? pid = some r) : (s.heap r).owner < c.people.length := by
  obtain ⟨ag, σ, h1, -⟩ := (C28_open_pool_has_one_operator hmin h hp).2
  obtain ⟨ag', h2, -⟩ := (h.good hmin).fixed.get h1
  have := Dict.mem_keys_of_get? h2
  rw [keys_init] at this
  exact List.mem_range.1 this

/-- C21.  Sequential and random activation: agent `b` says it delegates `x` to pool `pid` iff the pool is open and says so too. -/
theorem C21_delegations_symmetric (hmin : (0 : F) < minUnit) {c : Config F} (hc : c.simultaneous = false) {s : State F} (h : Reachable c s)
    (b pid : Nat) (x : F) : Says s b pid x ↔ Records s pid b x := by
  obtain ⟨hq, -⟩ := (h.good hmin).seq hc
  rw [says_iff]
  constructor
  · intro hx
    obtain ⟨-, r, h2, -⟩ := hq.good b pid x hx
    exact ⟨r, h2, by rw [hq.agree pid r h2 b]; exact hx⟩
  · rintro ⟨r, h2, h3⟩
    rw [hq.agree pid r h2 b] at h3; exact h3

/-- C21.  Every delegation is at least `MIN_STAKE_UNIT` and goes to an open pool of somebody else. -/
theorem C21_delegations_sound (hmin : (0 : F) < minUnit) {c : Config F} (hc : c.simultaneous = false) {s : State F} (h : Reachable c s)
    {b pid : Nat} {x : F} (hx : Says s b pid x) : minUnit ≤ x ∧ IsOpen s pid ∧ ∀ r, ¬ Operates s b pid r := by
  have hg := h.good hmin
  obtain ⟨hq, -⟩ := hg.seq hc
  obtain ⟨h1, r, h2, h3⟩ := hq.good b pid x (says_iff.1 hx)
  refine ⟨h1, ⟨r, h2⟩, fun r' ho => ?_⟩
  obtain ⟨k1, k2⟩ := (hg.inv.own.own_iff _ _ _).1 (operates_iff.1 ho)
  rw [h2] at k1; cases k1
  exact h3 k2

/-- the hypotheses are met by a state with three pools and a delegator -/
example : ∃ s, Reachable (demo false) s ∧ Says s 2 1 (2/15) ∧ Records s 1 2 (2/15) ∧ IsOpen s 8 := by
  obtain ⟨s, ⟨es, h1, h2⟩, h3⟩ := demo_reachable
  have hr : Reachable (demo false) s := ⟨es, fun e he => (h1 e he).1, h2⟩
  cases hp : s.pools with
  | nil => rw [demoView, hp] at h3; cases h3
  | cons e t =>
    cases ht : t with
    | nil => rw [demoView, hp, ht] at h3; simp at h3
    | cons e' t' =>
      cases ht' : t' with
      | nil => rw [demoView, hp, ht, ht'] at h3; simp at h3
      | cons e'' t'' =>
        rw [demoView, hp, ht, ht'] at h3
        simp only [List.map_cons, List.cons.injEq, Prod.mk.injEq] at h3
        obtain ⟨⟨a1, a2, a3, a4⟩, ⟨b1, -⟩, ⟨c1, -⟩, -⟩ := h3
        have hrec : Records s 1 2 (2/15) := ⟨e.2, by rw [hp]; simp [Dict.get?, a1], by rw [a4]; simp [Dict.get?]⟩
        refine ⟨s, hr, (C21_delegations_symmetric minUnit_pos_rat rfl hr 2 1 (2/15)).2 hrec, hrec, e''.2, ?_⟩
        rw [hp, ht, ht']; simp [Dict.get?, a1, b1, c1]

/-- C26.  Open pools have pairwise different ids, each is stored under its own id, and ids are between 1 and the counter. -/
theorem C26_ids_unique (hmin : (0 : F) < minUnit) {c : Config F} {s : State F} (h : Reachable c s) :
    s.pools.keys.Nodup ∧ ∀ pid r, s.pools.get? pid = some r → (s.heap r).id = pid ∧ 1 ≤ pid ∧ pid ≤ s.idSeq := by
  have hc := (h.good hmin).inv.core
  exact ⟨hc.poolsNodup, fun pid r hp => (hc.poolRef pid r hp).2⟩

theorem later_good (hmin : (0 : F) < minUnit) {c : Config F} {s s' : State F} (hs : Good c s) (h : Later c s s') {a pid : Nat} (hb : Bound a s pid) :
    Good c s' ∧ Bound a s' pid := by
  obtain ⟨es, hv, he⟩ := h
  refine iterM_induct (P := fun s => Good c s ∧ Bound a s pid) (V := Event.Valid c.people.length) ?_ ⟨hs, hb⟩ hv he
  rintro s ev s' ⟨hs, hb⟩ hv he
  have := hs.exec hmin hv
  rw [he] at this
  exact ⟨this.2, this.1.bound hs.inv hb⟩

/-- C26.  The id of a pool that was closed is never used again, in any activation mode. -/
theorem C26_closed_ids_not_reused (hmin : (0 : F) < minUnit) {c : Config F} {s s' s'' : State F} (h : Reachable c s) {pid : Nat}
    (ho : IsOpen s pid) (h1 : Later c s s') (hcl : ¬ IsOpen s' pid) (h2 : Later c s' s'') : ¬ IsOpen s'' pid := by
  have hg := h.good hmin
  obtain ⟨r, hr⟩ := ho
  have hb : Bound (s.heap r).owner s pid := Or.inl (by rw [(hg.inv.own.own_iff _ _ _).2 ⟨hr, rfl⟩]; simp)
  obtain ⟨hg', hb'⟩ := later_good hmin hg h1 hb
  have hd : Dead s' pid := by
    rcases hb' with ho | hd
    · obtain ⟨r', hr'⟩ := Option.ne_none_iff_exists'.1 ho
      exact absurd ⟨r', ((hg'.inv.own.own_iff _ _ _).1 hr').1⟩ hcl
    · exact hd
  -- a dead id is bound to every agent, hence stays dead
  obtain ⟨hg'', hb0⟩ := later_good hmin hg' h2 (a := c.people.length) (pid := pid) (Or.inr hd)
  rintro ⟨q, hq⟩
  rcases hb0 with ho | hd''
  · obtain ⟨r', hr'⟩ := Option.ne_none_iff_exists'.1 ho
    unfold ownOf at hr'
    cases ha : s''.agents.get? c.people.length with
    | none => rw [ha] at hr'; cases hr'
    | some ag =>
      obtain ⟨ag', h2, -⟩ := hg''.fixed.get ha
      have := Dict.mem_keys_of_get? h2
      rw [keys_init] at this
      exact absurd (List.mem_range.1 this) (lt_irrefl _)
  · rw [hd''.closed] at hq; cases hq

/-- C26.  As long as a pool id is open it belongs to the same operator. -/
theorem C26_operator_of_id_constant (hmin : (0 : F) < minUnit) {c : Config F} {s s' : State F} (h : Reachable c s) {pid : Nat} {r r' : Ref}
    (hr : s.pools.get? pid = some r) (h1 : Later c s s') (hr' : s'.pools.get? pid = some r') : (s'.heap r').owner = (s.heap r).owner := by
  have hg := h.good hmin
  have hb : Bound (s.heap r).owner s pid := Or.inl (by rw [(hg.inv.own.own_iff _ _ _).2 ⟨hr, rfl⟩]; simp)
  obtain ⟨hg', hb'⟩ := later_good hmin hg h1 hb
  rcases hb' with ho | hd
  · obtain ⟨q, hq⟩ := Option.ne_none_iff_exists'.1 ho
    obtain ⟨k1, k2⟩ := (hg'.inv.own.own_iff _ _ _).1 hq
    rw [hr'] at k1; cases k1; exact k2
  · rw [hd.closed] at hr'; cases hr'

/-- C67.  An abstaining agent never operates a pool, never delegates, never stages a strategy and is in no pool's list of delegators,
in any activation mode. -/
theorem C67_abstainers_stay_out (hmin : (0 : F) < minUnit) {c : Config F} {s : State F} (h : Reachable c s) {a : Nat} {stake cost : F}
    (ha : c.people[a]? = some (stake, cost, .abstainer)) :
    (∃ ag, s.agents.get? a = some ag ∧ ag.strategy = none ∧ ag.newStrategy = none) ∧ (∀ pid r, ¬ Operates s a pid r) ∧ (∀ pid x, ¬ Says s a pid x) ∧
    (∀ pid x, ¬ Records s pid a x) := by
  have hg := h.good hmin
  have hlt : a < c.people.length := by
    rcases Nat.lt_or_ge a c.people.length with h | h
    · exact h
    · rw [List.getElem?_eq_none h] at ha; cases ha
  obtain ⟨ag, hag⟩ := Option.isSome_iff_exists.1 (by rw [hg.fixed.isSome]; exact isSome_init c hlt : (s.agents.get? a).isSome)
  obtain ⟨ag', h2, -, -, -, hp⟩ := hg.fixed.get hag
  have hp' : ag'.profile = .abstainer := by
    have : (initState c).agents.get? a = (c.people[a]?).map (fun x => newAgent a x.1 x.2.1 x.2.2) := by
      have gen : ∀ (l : List (F × F × Profile)) (i a : Nat), Dict.get? ((l.zipIdx i).map (fun e => (e.2, newAgent e.2 e.1.1 e.1.2.1 e.1.2.2))) (i + a) =
          (l[a]?).map (fun x => newAgent (i + a) x.1 x.2.1 x.2.2) := by
        intro l
        induction l with
        | nil => intro i a; simp
        | cons x t ih =>
          intro i a
          simp only [List.zipIdx_cons, List.map_cons, Dict.get?_cons]
          cases a with
          | zero => simp
          | succ a =>
            rw [if_neg (by omega)]
            have := ih (i + 1) a
            rw [show i + 1 + a = i + (a + 1) by omega] at this
            simpa using this
      have := gen c.people 0 a
      simpa [initState] using this
    rw [this, ha] at h2
    simp only [Option.map_some, Option.some.injEq] at h2
    rw [← h2]; rfl
  obtain ⟨n1, n2⟩ := hg.inv.abst a ag hag (hp.trans hp')
  have nostrat : ∀ {ag' σ}, s.agents.get? a = some ag' → ag'.strategy = some σ → False := by
    intro ag' σ k1 k2; rw [hag] at k1; cases k1; rw [n1] at k2; cases k2
  refine ⟨⟨ag, hag, n1, n2⟩, ?_, ?_, ?_⟩
  · rintro pid r ⟨_, _, k1, k2, -⟩; exact nostrat k1 k2
  · rintro pid x ⟨_, _, k1, k2, -⟩; exact nostrat k1 k2
  · rintro pid x ⟨r, k1, k2⟩
    obtain ⟨_, _, k3, k4⟩ := hg.inv.del r ⟨_, pid, Or.inl ((hg.inv.own.own_iff _ _ _).2 ⟨k1, rfl⟩)⟩ a (Dict.mem_keys_of_get? k2)
    exact nostrat k3 k4

example : (demo false).people[4]? = some (1/10, 1/1000, .abstainer) := rfl

/-- C64.  Sequential and random activation: if a pool is closed during the turn of agent `me`, afterwards nobody delegates to it, and it is
in no ranking. -/
theorem C64_closed_pool_has_no_delegators (hmin : (0 : F) < minUnit) {c : Config F} (hc : c.simultaneous = false) {s s' : State F}
    (h : Reachable c s) {ev : Event F} (hv : ev.Valid c.people.length) (he : exec s ev = .ok s') {pid : Nat} {r : Ref}
    (_ho : s.pools.get? pid = some r) (hcl : ¬ IsOpen s' pid) :
    (∀ b x, ¬ Says s' b pid x) ∧ some r ∉ s'.rank.vals ∧ some r ∉ s'.rankM.vals := by
  have h' := h.next hv he
  have hg := (h.good hmin).inv.core
  have hg' := (h'.good hmin)
  obtain ⟨hq, -⟩ := hg'.seq hc
  have key : ∀ q, some q ∈ s'.rank.vals ∨ some q ∈ s'.rankM.vals → s'.pools.get? (s'.heap q).id = some q := by
    rintro q (hq | hq)
    · obtain ⟨⟨k, e⟩, hm, he⟩ := List.mem_map.1 hq
      simp only at he; subst he
      exact (hg'.inv.core.of_mem_rank hm).1
    · obtain ⟨⟨k, e⟩, hm, he⟩ := List.mem_map.1 hq
      simp only at he; subst he
      exact (hg'.inv.core.of_mem_rankM hm).1
  have hid : (s'.heap r).id = pid := by
    have hlt := (hg.poolRef _ _ _ho).1
    have hid0 := (hg.poolRef _ _ _ho).2.1
    have hdid := (h.good hmin).exec hmin hv
    rw [he] at hdid
    cases hdid.1 with
    | idle => exact hid0
    | plan me ord ag σ oν s₁ s' ha hp hσ hpm hpl => rw [hpl.eq]; exact (hpl.planned.same r hlt).id.trans hid0
    | move me ord ag σ ν s₁ s₂ s₃ ha hp hσ hpm hpl hsim ht hex hd =>
      refine ((hd.same r).id).trans ?_
      rw [hpl.eq]; exact (hpl.planned.same r hlt).id.trans hid0
    | skip => exact hid0
    | adv me ord ag σ ν s₃ ha hσ hν hex hd => exact ((hd.same r).id).trans hid0
    | phase p s' hp hc => exact (hp.attr r).1.trans hid0
    | roundEnd => exact hid0
  refine ⟨?_, ?_, ?_⟩
  · intro b x hx
    obtain ⟨-, r, h2, -⟩ := hq.good b pid x (says_iff.1 hx)
    exact hcl ⟨r, h2⟩
  · intro hm; exact hcl ⟨r, hid ▸ key r (Or.inl hm)⟩
  · intro hm; exact hcl ⟨r, hid ▸ key r (Or.inr hm)⟩

/-- C64.  Sequential and random activation: the turn of agent `me` changes a delegation of another agent `b` only by removing it, and only
if the pool was operated by `me` and is now closed or private. -/
theorem C64_other_delegations_kept (hmin : (0 : F) < minUnit) {c : Config F} (hc : c.simultaneous = false) {s s' : State F}
    (h : Reachable c s) {me : Nat} {ord : List Nat → List Nat} (hv : (Event.step me ord : Event F).Valid c.people.length)
    (he : agentStep ord s me = .ok s') {b : Nat} (hb : b ≠ me) (pid : Nat) :
    (∀ x, Says s' b pid x ↔ Says s b pid x) ∨
    ((∀ x, ¬ Says s' b pid x) ∧ (∃ r, Operates s me pid r) ∧ (¬ IsOpen s' pid ∨ ∃ r, s'.pools.get? pid = some r ∧ (s'.heap r).isPrivate = true)) := by
  have hg := h.good hmin
  have hd := hg.exec hmin hv
  change Sat _ (agentStep ord s me) _ at hd
  rw [he] at hd
  obtain ⟨hd, hg'⟩ := hd
  have hsame : (∀ x, Says s' b pid x ↔ Says s b pid x) ↔ allocOf s' b pid = allocOf s b pid := by
    simp only [says_iff]
    constructor
    · intro hx
      cases h1 : allocOf s' b pid with
      | some x => exact ((hx x).1 h1).symm
      | none =>
        cases h2 : allocOf s b pid with
        | none => rfl
        | some x => rw [(hx x).2 h2] at h1; cases h1
    · intro hx x; rw [hx]
  cases hd with
  | idle => exact Or.inl (fun x => Iff.rfl)
  | plan me ord ag σ oν s₁ s' ha hp hσ hpm hpl =>
    left; rw [hsame, hpl.eq]
    exact allocOf_setAgent ha (hg.inv.core.agentId _ _ ha) hpl.planned.agents oν b pid
  | move me ord ag σ ν s₁ s₂ s₃ ha hp hσ hpm hpl hsim ht hex hd hinv hds =>
    have h2 : allocOf s₂ b pid = allocOf s b pid := by
      rw [hpl.eq]; exact allocOf_setAgent ha (hg.inv.core.agentId _ _ ha) hpl.planned.agents (some ν) b pid
    have hds := hds hc
    have h3 : allocOf { s₃ with idle := false } b pid = allocOf s₃ b pid := rfl
    by_cases hgone : Gone s₂ σ ν pid
    · right
      obtain ⟨r, hr⟩ := Dict.mem_keys_iff.1 hgone.1
      refine ⟨fun x hx => ?_, ⟨r, ag, σ, ha, hσ, hr⟩, ?_⟩
      · rw [says_iff, h3, hds.gone b hb pid hgone] at hx; cases hx
      · have hid := hg.inv.core.agentId me ag ha
        have hg2 : s₂.agents.get? me = some { ag with newStrategy := some ν } := by
          rw [hpl.eq, get?_setAgent (me := me) (ag := { ag with newStrategy := some ν }) hid me, if_pos rfl]
        rcases hgone.2 with hn | ⟨r', hr', hex⟩
        · left
          rintro ⟨q, hq⟩
          have hq' : s₃.pools.get? pid = some q := hq
          have ho := (hd.inv.own.own_iff _ _ _).2 ⟨hq', rfl⟩
          obtain ⟨k1, k2⟩ := (hg.inv.owned ha hσ hr)
          have hb0 : Bound me s pid := Or.inl (by rw [ownOf_eq ha hσ, hr]; simp)
          rcases hd.bound hpl.inv hg2 rfl (hpl.bound hg.inv ha hσ hb0) with h5 | h5
          · rw [(hd.own_me hg2 pid).1] at h5
            exact h5 (Dict.get?_eq_none.2 hn)
          · rw [h5.closed] at hq'; cases hq'
        · right
          have ho : ownOf s₃ me pid = some r' := by rw [(hd.own_me hg2 pid).1]; exact hr'
          obtain ⟨k1, -⟩ := (hd.inv.own.own_iff _ _ _).1 ho
          exact ⟨r', k1, (hd.same r').isPrivate.trans hex.1⟩
    · left; rw [hsame, h3, hds.kept b hb pid hgone, h2]

/-- C19.  Planning, any activation mode with consistent delegations (sequential and random): `update_strategy` changes no pool's membership,
owner, pledge, cost, margin, profit, desirability or private flag, no delegation, no current strategy, and the non-myopic ranking not at all. -/
theorem C19_planning_disturbs_nothing (hmin : (0 : F) < minUnit) {c : Config F} (hc : c.simultaneous = false) {s s' : State F}
    (h : Reachable c s) {me : Nat} {ord : List Nat → List Nat} (hme : me < c.people.length) (hord : ∀ l, (ord l).Perm l)
    (he : updateStrategy ord s me = .ok s') :
    s'.pools = s.pools ∧ s'.rank = s.rank ∧
    (∀ pid r, s.pools.get? pid = some r → ∃ st ds, s'.heap r = { s.heap r with stake := st, delegators := ds }) ∧
    (∀ pid b x, Records s' pid b x ↔ Records s pid b x) ∧
    (∀ b pid x, Says s' b pid x ↔ Says s b pid x) ∧ (∀ a pid r, Operates s' a pid r ↔ Operates s a pid r) ∧
    (∀ b ag, s.agents.get? b = some ag → ∃ ν, s'.agents.get? b = some { ag with newStrategy := ν }) := by
  have hg := h.good hmin
  obtain ⟨hq, -⟩ := hg.seq hc
  obtain ⟨ag, ha⟩ := Option.isSome_iff_exists.1 (by rw [hg.fixed.isSome]; exact isSome_init c hme : (s.agents.get? me).isSome)
  have := updateStrategy_spec hg.inv hord ha (t := True) (fun _ => hq)
  rw [he] at this
  rcases this with ⟨-, rfl⟩ | ⟨-, σ, oν, s₁, hσ, hpl, -, hseq⟩
  · exact ⟨rfl, rfl, fun pid r _ => ⟨_, _, rfl⟩, fun _ _ _ => Iff.rfl, fun _ _ _ => Iff.rfl, fun _ _ _ => Iff.rfl, fun b ag hb => ⟨ag.newStrategy, hb⟩⟩
  · have hid := hg.inv.core.agentId me ag ha
    have hq' := (hseq trivial).1
    have hpools : s'.pools = s.pools := by rw [hpl.eq]; exact hpl.planned.pools
    have hal : ∀ b pid, allocOf s' b pid = allocOf s b pid := by
      intro b pid; rw [hpl.eq]; exact allocOf_setAgent ha hid hpl.planned.agents oν b pid
    refine ⟨hpools, ?_, ?_, ?_, ?_, ?_, ?_⟩
    · rw [hpl.eq]; exact hpl.planned.rank
    · intro pid r hr
      have hs := hpl.planned.same r (hg.inv.core.poolRef _ _ hr).1
      refine ⟨(s'.heap r).stake, (s'.heap r).delegators, ?_⟩
      have hh : s'.heap r = s₁.heap r := by rw [hpl.eq]; rfl
      rw [hh]
      have h1 := hs.id; have h2 := hs.owner; have h3 := hs.pledge; have h4 := hs.cost; have h5 := hs.margin; have h6 := hs.pp
      have h7 := hs.des; have h8 := hs.isPrivate
      cases hx : s₁.heap r; cases hy : s.heap r
      rw [hx, hy] at h1 h2 h3 h4 h5 h6 h7 h8
      simp_all
    · intro pid b x
      constructor
      · rintro ⟨r, k1, k2⟩
        rw [hq'.agree pid r k1, hal] at k2
        rw [hpools] at k1
        exact ⟨r, k1, by rw [hq.agree pid r k1]; exact k2⟩
      · rintro ⟨r, k1, k2⟩
        rw [hq.agree pid r k1, ← hal] at k2
        rw [← hpools] at k1
        exact ⟨r, k1, by rw [hq'.agree pid r k1]; exact k2⟩
    · intro b pid x; rw [says_iff, says_iff, hal]
    · intro a pid r; rw [operates_iff, operates_iff, hpl.ownOf hid ha]
    · intro b agb hb
      by_cases hbm : b = me
      · subst hbm
        rw [ha] at hb; cases hb
        exact ⟨oν, by rw [hpl.eq, get?_setAgent (me := b) (ag := { ag with newStrategy := oν }) hid b, if_pos rfl]⟩
      · exact ⟨agb.newStrategy, by rw [hpl.eq, get?_setAgent (me := me) (ag := { ag with newStrategy := oν }) hid b, if_neg hbm, hpl.planned.agents]; exact hb⟩

/-- C39.  `change_phase` (any state of any simulation): a parameter with a value for the phase takes it (a new `k` also sets the threshold to
`1/k`), the others keep theirs; every open pool is re-evaluated under the new parameters; nothing else about any pool or agent changes. -/
theorem C39_phase_change (hmin : (0 : F) < minUnit) {c : Config F} {s s' : State F} (h : Reachable c s) {p : PhaseParams F}
    (he : exec s (.phase p) = .ok s') :
    s'.rs.k = p.k.getD s.rs.k ∧ s'.rs.a0 = p.a0.getD s.rs.a0 ∧ s'.rs.scheme = s.rs.scheme ∧
    s'.rs.beta = (match p.k with | some k => 1 / (k : F) | none => s.rs.beta) ∧
    s'.agents = s.agents ∧ s'.pools = s.pools ∧ s'.idSeq = s.idSeq ∧
    (∀ pid r, s.pools.get? pid = some r →
      s'.heap r = { s.heap r with pp := potentialProfit s'.rs (s.heap r).pledge (s.heap r).cost,
                                  des := desirability (s.heap r).margin (potentialProfit s'.rs (s.heap r).pledge (s.heap r).cost) }) := by
  have hg := h.good hmin
  have := changePhase_spec hg.inv.core p
  change changePhase s p = _ at he
  rw [he] at this
  obtain ⟨hc, hp, hrs, -⟩ := this
  refine ⟨?_, ?_, ?_, ?_, hp.agents, hp.pools, hp.idSeq, ?_⟩
  · rw [hrs]; unfold phaseRS; cases p.k <;> cases p.a0 <;> rfl
  · rw [hrs]; unfold phaseRS; cases p.k <;> cases p.a0 <;> rfl
  · rw [hrs]; unfold phaseRS; cases p.k <;> cases p.a0 <;> rfl
  · rw [hrs]; unfold phaseRS; cases p.k <;> cases p.a0 <;> rfl
  · intro pid r hr
    rw [hp.heap r, if_pos ((mem_vals_iff hg.inv.core).2 ⟨pid, hr⟩)]
    rfl

/-- C39.  The rankings after a phase change are those of C15 for the new keys, and the phase change succeeds unless `k = 0` is assigned. -/
theorem C39_phase_change_succeeds (hmin : (0 : F) < minUnit) {c : Config F} {s : State F} (h : Reachable c s) (p : PhaseParams F) :
    (p.k = some 0 ∧ exec s (.phase p) = .error .value) ∨
    (∃ s', exec s (.phase p) = .ok s' ∧ s'.rank.vals.Pairwise (fun e e' => rankedBy s' e ≤ rankedBy s' e') ∧ s'.rankM.vals.Pairwise (fun e e' => rankedByM s' e ≤ rankedByM s' e')) := by
  have hs := changePhase_spec (h.good hmin).inv.core p
  change Sat _ (exec s (.phase p)) _ at hs
  cases hx : exec s (.phase p) with
  | error e => rw [hx] at hs; exact Or.inl ⟨hs.2, by rw [hs.1]⟩
  | ok s' => exact Or.inr ⟨s', rfl, C15_rankings_sorted hmin (h.next (ev := .phase p) trivial hx)⟩

end RSE.Props
