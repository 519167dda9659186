import Verif.Lemmas.GreedyMono

/-!
# Planning in a reachable state (sequential activation, exact arithmetic) leaves everything as it was
-/

set_option linter.unusedSectionVars false

namespace RSE

variable {K : Type} [Field K] [LinearOrder K] [IsStrictOrderedRing K]

theorem Calm.of_planned {n : Nat} {s s' : State K} {a : Nat} {σ : Strategy K} (h : Ready n s a σ) (hp : Planned a σ.allocs.keys s s')
    (hr : Restored a σ.allocs s s') (hc : Core n s') (hb : AllPools Balanced s') : Calm s s' ∧ Ready n s' a σ := by
  have hget : ∀ r < s.next, ∀ b, (s'.heap r).delegators.get? b = (s.heap r).delegators.get? b := by
    intro r hrn b
    by_cases hba : b = a
    · subst hba
      by_cases hex : ∃ pid ∈ σ.allocs.keys, s.pools.get? pid = some r
      · obtain ⟨pid, hm, hpr⟩ := hex
        obtain ⟨x, hx⟩ := Dict.mem_keys_iff.1 hm
        rcases hr pid r hpr with h1 | h1
        · exact h1
        · rw [h1, hx, h.agree pid r hpr, hx]
          exact recorded_of_min (h.min _ (Dict.mem_of_get? hx))
      · push Not at hex
        rw [hp.untouched r hrn hex]
    · exact hp.others r hrn b hba
  have hal : ∀ r < s.next, Alike (s.heap r) (s'.heap r) := fun r hrn =>
    ⟨hp.same r hrn, (h.bal r).stake_eq (hb r) (hp.same r hrn) (hget r hrn)⟩
  have hrm : s'.rankM = s.rankM := by
    refine SKL.eq_of_perm hc.rankMSorted h.core.rankMSorted ?_ hc.rankM_unique
    refine hc.rankMPerm.trans (List.Perm.trans (List.Perm.of_eq ?_) h.core.rankMPerm.symm)
    unfold rankEntries
    rw [hp.pools, hp.rs]
    congr 1
    apply List.map_congr_left
    intro e he
    rw [(hal e.2 (h.core.poolRef _ _ (Dict.get?_of_mem h.core.poolsNodup he)).1).keyM]
  refine ⟨⟨?_, hp.next_le, hal, fun r hrn => Dict.perm_of_get? (h.core.delNodup r) (hc.delNodup r) (hget r hrn)⟩, hc, hb, h.nodup, h.min, ?_, ?_⟩
  · have := hp.eq
    rw [hrm] at this
    exact this
  · intro pid r hpr
    rw [hp.pools] at hpr
    rw [hget r (h.core.poolRef _ _ hpr).1]; exact h.agree pid r hpr
  · intro pid x hx; rw [hp.pools]; exact h.exist pid x hx

/-- In a state of a simulation, an agent whose delegations are recorded can plan without leaving a trace. -/
theorem Reachable.ready_of {c : Config K} {s : State K} (h : Reachable c s) {me : Nat} {ag : Agent K} {σ : Strategy K}
    (ha : s.agents.get? me = some ag) (hσ : ag.strategy = some σ) (hr : InRecords s me σ) : Ready (c.rs.k + 1) s me σ := by
  have hg := h.good minUnit_pos
  refine ⟨hg.inv.core, h.balanced, (hg.inv.tidy me ag ha).allocs _ hσ, (h.allocsMin minUnit_pos me ag ha).1 σ hσ, ?_, ?_⟩
  · intro pid r hp
    refine Option.ext (fun x => ?_)
    rw [← hr pid x]
    constructor
    · intro hx; exact ⟨r, hp, hx⟩
    · rintro ⟨r', hp', hx⟩
      rw [hp] at hp'; cases hp'; exact hx
  · intro pid x hx
    obtain ⟨r, hp, -⟩ := (hr pid x).2 hx
    exact ⟨r, hp⟩

/-- if the books are straight, all delegations are recorded -/
theorem Books.inRecords {s : State K} (hq : Books s) {me : Nat} {ag : Agent K} {σ : Strategy K}
    (ha : s.agents.get? me = some ag) (hσ : ag.strategy = some σ) : InRecords s me σ := by
  intro pid x
  constructor
  · rintro ⟨r, hp, hx⟩
    rw [← allocOf_eq ha hσ, ← hq.agree pid r hp me]; exact hx
  · intro hx
    obtain ⟨-, r, hr, -⟩ := hq.good me pid x (by rw [allocOf_eq ha hσ]; exact hx)
    exact ⟨r, hr, by rw [hq.agree pid r hr me, allocOf_eq ha hσ]; exact hx⟩

theorem Reachable.books {c : Config K} {s : State K} (h : Reachable c s) (hc : c.simultaneous = false) : Books s :=
  ((h.good minUnit_pos).seq hc).1.books

/-- with sequential and random activation all delegations are recorded -/
theorem Reachable.inRecords {c : Config K} {s : State K} (h : Reachable c s) (hc : c.simultaneous = false) {me : Nat} {ag : Agent K} {σ : Strategy K}
    (ha : s.agents.get? me = some ag) (hσ : ag.strategy = some σ) : InRecords s me σ := (h.books hc).inRecords ha hσ

theorem Reachable.ready {c : Config K} {s : State K} (h : Reachable c s) (hc : c.simultaneous = false) {me : Nat} {ag : Agent K} {σ : Strategy K}
    (ha : s.agents.get? me = some ag) (hσ : ag.strategy = some σ) : Ready (c.rs.k + 1) s me σ :=
  h.ready_of ha hσ (h.inRecords hc ha hσ)

/-- planning does not change anything that can be seen -/
theorem Reachable.plan_calm_of {c : Config K} {s s₁ : State K} (h : Reachable c s) {me : Nat} {ag : Agent K}
    {σ : Strategy K} (ha : s.agents.get? me = some ag) (hσ : ag.strategy = some σ) (hr : InRecords s me σ) {ord : List Nat → List Nat}
    (hord : ∀ l, (ord l).Perm l) {oν : Option (Strategy K)} (hpm : planMove ord s ag σ = .ok (s₁, oν)) : Calm s s₁ ∧ Ready (c.rs.k + 1) s₁ me σ := by
  have hg := h.good minUnit_pos
  have ht := hg.inv.tidy me ag ha
  obtain ⟨c1, p1, r1, -⟩ := (planMove_spec hg.inv.core hord ag (ht.allocs _ hσ) (ht.owned _ hσ)
    (fun pid r hr => (hg.inv.owned ha hσ hr).1)).of_ok hpm
  have hid := hg.inv.core.agentId me ag ha
  rw [hid] at p1 r1
  exact Calm.of_planned (h.ready_of ha hσ hr) p1 r1 c1 (h.planned_balanced ha hσ hord hpm)

theorem Reachable.plan_calm {c : Config K} {s s₁ : State K} (h : Reachable c s) (hc : c.simultaneous = false) {me : Nat} {ag : Agent K}
    {σ : Strategy K} (ha : s.agents.get? me = some ag) (hσ : ag.strategy = some σ) {ord : List Nat → List Nat} (hord : ∀ l, (ord l).Perm l)
    {oν : Option (Strategy K)} (hpm : planMove ord s ag σ = .ok (s₁, oν)) : Calm s s₁ ∧ Ready (c.rs.k + 1) s₁ me σ :=
  h.plan_calm_of ha hσ (h.inRecords hc ha hσ) hord hpm

end RSE
