import Verif.Lemmas.Commit
import Verif.Lemmas.Count
import Verif.Props.Drift

/-!
# C104: rounding lets agents commit at most a hair more than they own

In exact arithmetic an agent's delegations and pledges do not exceed its stake (C22), and the pools hold no more than the agents own (C23).  In binary64 an
agent can commit more than its stake (`C96_overcommitted`), but only a little.
-/

set_option linter.unusedSectionVars false
set_option exponentiation.threshold 2000

namespace RSE.Props

open RSE

/-- there are at most `M` pools at any time while the events `es` happen -/
def AtMost (M : Nat) (c : Config B64) (es : List (Event B64)) : Prop :=
  ∀ es₁ es₂ s₁, es = es₁ ++ es₂ → iterM exec (initState c) es₁ = .ok s₁ → s₁.pools.length ≤ M

theorem committed_eq (s : State B64) (σ : Strategy B64) : committed s σ = σ.allocs.sumQ + pledgesQ s.heap σ := by
  unfold committed Dict.sumQ pledgesQ Dict.vals
  rw [List.map_map]
  rfl

/-- C104.  As long as there have never been more than `M` pools, the delegations and pledges of an agent, added up exactly, exceed its stake by at most
`(M + 4) * 2^-53` of it, plus `2^-1075` per pool and once more (any mode, any phases). -/
theorem C104_committed {c : Config B64} (h0 : ∀ e ∈ c.people, 0 ≤ e.1) (hb : 0 ≤ c.rs.beta) {es : List (Event B64)}
    (hv : ∀ ev ∈ es, ev.Valid c.people.length) {M : Nat} (hM : AtMost M c es) {s : State B64} (hs : iterM exec (initState c) es = .ok s)
    {b : Nat} {ag : Agent B64} {σ : Strategy B64} (ha : s.agents.get? b = some ag) (hσ : ag.strategy = some σ) :
    committed s σ ≤ ag.stake.1 * (1 + (M + 4) * (2 : ℚ) ^ (-53 : Int)) + (σ.owned.length + 1) * (2 : ℚ) ^ (-1075 : Int) := by
  have h := ((run_committed h0 hb hv (fun s₁ ⟨es₁, es₂, h1, h2⟩ => hM es₁ es₂ s₁ h1 h2) hs) b ag ha).1 σ hσ
  rw [committed_eq]
  refine h.2.trans (le_of_eq ?_)
  unfold ulp tiny64
  ring

/-- in a single-phase simulation there are at most `k` pools per agent -/
theorem pools_le {c : Config B64} {s : State B64} (h : ReachableSinglePhase c s) : s.pools.length ≤ c.people.length * c.rs.k := by
  have hmin := (RoundedArith.minUnit_pos (F := B64))
  have hg := (Reachable.of_single h).good hmin
  have h1 := (pools_perm hg.inv (fun pid r hp => by obtain ⟨ag, _, ha, -⟩ := hg.inv.owner hp; exact ⟨ag, ha⟩)).length_eq
  rw [h1, List.length_flatMap]
  have h2 : ∀ x ∈ s.agents.map (fun e => (ownedOf e.2).length), x ≤ c.rs.k := by
    intro x hx
    obtain ⟨⟨b, ag⟩, he, rfl⟩ := List.mem_map.1 hx
    have ha := Dict.get?_of_mem hg.inv.core.agentsNodup he
    unfold ownedOf
    cases hσ : ag.strategy with
    | none => exact Nat.zero_le _
    | some σ =>
      obtain ⟨rs, f, ⟨hrs, -⟩, ht⟩ := (h.terms hmin b ag ha).strategy σ hσ
      simpa [hrs] using ht.len
  have h3 := List.sum_le_card_nsmul _ _ h2
  rw [List.length_map, smul_eq_mul] at h3
  refine h3.trans (Nat.mul_le_mul_right _ ?_)
  have h4 : ∀ a ∈ s.agents.keys, a ∈ List.range c.people.length := by
    intro a ha
    obtain ⟨ag, hag⟩ := Dict.mem_keys_iff.1 ha
    exact List.mem_range.2 (List.getElem?_eq_some_iff.1 (hg.person hag)).1
  have := (hg.inv.core.agentsNodup.subperm h4).length_le
  simpa [Dict.keys] using this

theorem atMost_single {c : Config B64} {es : List (Event B64)} (hv : ∀ ev ∈ es, ev.Valid c.people.length ∧ ∀ p, ev ≠ .phase p) :
    AtMost (c.people.length * c.rs.k) c es := by
  rintro es₁ es₂ s₁ rfl h
  exact pools_le ⟨es₁, fun ev he => hv ev (List.mem_append_left _ he), h⟩

/-- C104.  In a single-phase simulation of `n` agents the number of pools need not be known: there are at most `n * k`. -/
theorem C104_single_phase {c : Config B64} (h0 : ∀ e ∈ c.people, 0 ≤ e.1) (hb : 0 ≤ c.rs.beta) {s : State B64} (h : ReachableSinglePhase c s)
    {b : Nat} {ag : Agent B64} {σ : Strategy B64} (ha : s.agents.get? b = some ag) (hσ : ag.strategy = some σ) :
    committed s σ ≤ ag.stake.1 * (1 + (c.people.length * c.rs.k + 4) * (2 : ℚ) ^ (-53 : Int)) + (c.rs.k + 1) * (2 : ℚ) ^ (-1075 : Int) := by
  obtain ⟨es, hv, hs⟩ := id h
  have h1 := C104_committed h0 hb (fun ev he => (hv ev he).1) (atMost_single hv) hs ha hσ
  push_cast at h1
  refine h1.trans ?_
  obtain ⟨rs, f, ⟨hrs, -⟩, ht⟩ := (h.terms (RoundedArith.minUnit_pos (F := B64)) b ag ha).strategy σ hσ
  have hl : (σ.owned.length : ℚ) ≤ (c.rs.k : ℚ) := by
    have := ht.len
    rw [hrs] at this
    exact_mod_cast this
  gcongr

/-- C104.  Sequential activation: the pledges and delegations of all pools, added up exactly, exceed the stake of all agents by at most `(M + 4) * 2^-53` of it,
plus `2^-1075` per pool and per agent. -/
theorem C104_total {c : Config B64} (hc : c.simultaneous = false) (h0 : ∀ e ∈ c.people, 0 ≤ e.1) (hb : 0 ≤ c.rs.beta) {es : List (Event B64)}
    (hv : ∀ ev ∈ es, ev.Valid c.people.length) {M : Nat} (hM : AtMost M c es) {s : State B64} (hs : iterM exec (initState c) es = .ok s) :
    (s.pools.map (fun e => fairStake (s.heap e.2))).sum ≤
      allStake c * (1 + (M + 4) * (2 : ℚ) ^ (-53 : Int)) + (M + c.people.length) * (2 : ℚ) ^ (-1075 : Int) := by
  have hr : Reachable c s := ⟨es, hv, hs⟩
  have hg := hr.good (RoundedArith.minUnit_pos (F := B64))
  have hbk := (hg.seq hc).1.books
  have hpools : s.pools.length ≤ M := hM es [] s (by simp) hs
  have e1 : (s.pools.map (fun e => fairStake (s.heap e.2))).sum =
      (s.agents.map (fun e => (allocsOf e.2).sumQ + ((ownedOf e.2).map (fun p => (s.heap p.2).pledge.1)).sum)).sum := by
    unfold fairStake
    rw [sum_map_add, sum_map_add, sum_pools hg.inv (fun e => (s.heap e.2).pledge.1)]
    have := sum_delegations hg.inv hbk (fun t => t.2.2.1)
    rw [this, add_comm]
    rfl
  have ht : (0 : ℚ) ≤ (2 : ℚ) ^ (-1075 : Int) := by positivity
  have e2 : (s.agents.map (fun e => (allocsOf e.2).sumQ + ((ownedOf e.2).map (fun p => (s.heap p.2).pledge.1)).sum)).sum ≤
      (s.agents.map (fun e => e.2.stake.1 * (1 + (M + 4) * (2 : ℚ) ^ (-53 : Int)) + ((ownedOf e.2).length + 1) * (2 : ℚ) ^ (-1075 : Int))).sum := by
    apply List.sum_le_sum
    rintro ⟨b, ag⟩ he
    have ha := Dict.get?_of_mem hg.inv.core.agentsNodup he
    unfold allocsOf ownedOf
    cases hσ : ag.strategy with
    | none =>
      have hS : 0 ≤ ag.stake.1 := hg.stake_ge h0 ha
      change (0 : ℚ) + 0 ≤ ag.stake.1 * (1 + (M + 4) * (2 : ℚ) ^ (-53 : Int)) + (((0 : Nat) : ℚ) + 1) * (2 : ℚ) ^ (-1075 : Int)
      rw [add_zero]
      positivity
    | some σ => exact C104_committed h0 hb hv hM hs ha hσ
  have e3 : (s.agents.map (fun e => e.2.stake.1 * (1 + (M + 4) * (2 : ℚ) ^ (-53 : Int)) + ((ownedOf e.2).length + 1) * (2 : ℚ) ^ (-1075 : Int))).sum =
      (s.agents.map (fun e => e.2.stake.1)).sum * (1 + (M + 4) * (2 : ℚ) ^ (-53 : Int)) +
        (((s.agents.map (fun e => (ownedOf e.2).length)).sum : ℕ) + s.agents.length) * (2 : ℚ) ^ (-1075 : Int) := by
    generalize s.agents = l
    induction l with
    | nil => simp
    | cons a t ih => simp only [List.map_cons, List.sum_cons, List.length_cons, ih]; push_cast; ring
  have e4 : (s.agents.map (fun e => e.2.stake.1)).sum ≤ allStake c := by
    have := sumQ_le_funds' h0 (d := s.agents.map (fun e => (e.1, e.2.stake))) (by
      simpa [Dict.keys, Function.comp_def] using hg.inv.core.agentsNodup) (by
      intro e he
      obtain ⟨⟨b, ag⟩, he', rfl⟩ := List.mem_map.1 he
      exact ⟨_, hg.person (Dict.get?_of_mem hg.inv.core.agentsNodup he'), le_rfl⟩)
    simpa [Dict.sumQ, Function.comp_def, Config.funds, allStake] using this
  have e5 : (s.agents.map (fun e => (ownedOf e.2).length)).sum ≤ M := by
    have h1 := (pools_perm hg.inv (fun pid r hp => by obtain ⟨ag, _, ha, -⟩ := hg.inv.owner hp; exact ⟨ag, ha⟩)).length_eq
    rw [List.length_flatMap] at h1
    rwa [← h1]
  have e6 : s.agents.length ≤ c.people.length := by
    have h4 : ∀ a ∈ s.agents.keys, a ∈ List.range c.people.length := by
      intro a ha
      obtain ⟨ag, hag⟩ := Dict.mem_keys_iff.1 ha
      exact List.mem_range.2 (List.getElem?_eq_some_iff.1 (hg.person hag)).1
    have := (hg.inv.core.agentsNodup.subperm h4).length_le
    simpa [Dict.keys] using this
  rw [e1]
  refine e2.trans (e3.le.trans ?_)
  gcongr

/-- C104.  So the stakes of the pools, with all their rounding errors (C103), hardly exceed the stake of the agents. -/
theorem C104_pool_stakes {c : Config B64} (hc : c.simultaneous = false) (h0 : ∀ e ∈ c.people, 0 ≤ e.1) (hb : 0 ≤ c.rs.beta) {es : List (Event B64)}
    (hv : ∀ ev ∈ es, ev.Valid c.people.length) (hm : (es.map rounds64).sum ≤ 2 ^ 52) {M : Nat} (hM : AtMost M c es) {s : State B64}
    (hs : iterM exec (initState c) es = .ok s) :
    (s.pools.map (fun e => (s.heap e.2).stake.1)).sum ≤
      allStake c * (1 + (M + 4) * (2 : ℚ) ^ (-53 : Int) + M * (es.map rounds64).sum * (2 : ℚ) ^ (-51 : Int)) +
        (M + c.people.length) * (2 : ℚ) ^ (-1075 : Int) := by
  have h1 := C104_total hc h0 hb hv hM hs
  have hr : Reachable c s := ⟨es, hv, hs⟩
  have hg := hr.good (RoundedArith.minUnit_pos (F := B64))
  have hpools : s.pools.length ≤ M := hM es [] s (by simp) hs
  have hT : 0 ≤ allStake c := by
    refine List.sum_nonneg fun x hx => ?_
    obtain ⟨e, he, rfl⟩ := List.mem_map.1 hx
    exact h0 e he
  have h2 : (s.pools.map (fun e => (s.heap e.2).stake.1)).sum ≤
      (s.pools.map (fun e => fairStake (s.heap e.2) + (es.map rounds64).sum * (2 : ℚ) ^ (-51 : Int) * allStake c)).sum := by
    apply List.sum_le_sum
    intro e he
    have := C103_linear h0 hb hv hm hs (Dict.get?_of_mem hg.inv.core.poolsNodup he)
    rw [abs_le] at this
    linarith [this.2]
  rw [sum_map_add, List.map_const', List.sum_replicate, nsmul_eq_mul] at h2
  have h3 : (s.pools.length : ℚ) * ((es.map rounds64).sum * (2 : ℚ) ^ (-51 : Int) * allStake c) ≤
      (M : ℚ) * ((es.map rounds64).sum * (2 : ℚ) ^ (-51 : Int) * allStake c) := by gcongr
  linarith

/-- The bound at work: the agent of `C96_overcommitted` commits more than its stake, but at most `7 * 2^-53` of it more (and a quantity that is far below the smallest number). -/
example : ∃ s : State B64, ReachableSinglePhase splitFloats s ∧ ∃ ag σ, s.agents.get? 0 = some ag ∧ ag.strategy = some σ ∧ ag.stake.1 < committed s σ ∧
    committed s σ ≤ ag.stake.1 * (1 + 7 * (2 : ℚ) ^ (-53 : Int)) + 4 * (2 : ℚ) ^ (-1075 : Int) := by
  obtain ⟨s, hs, ag, σ, ha, hσ, hlt⟩ := C96_overcommitted
  refine ⟨s, hs, ag, σ, ha, hσ, hlt, ?_⟩
  have := C104_single_phase (by decide +kernel) (by decide +kernel) hs ha hσ
  have h1 : splitFloats.people.length = 1 := rfl
  have h2 : splitFloats.rs.k = 3 := rfl
  rw [h1, h2] at this
  refine this.trans (le_of_eq ?_)
  push_cast
  ring

/-- ... and after eight turns of four agents with at most eight pools the stakes of the pools, as they are recorded, are at most `1 + 2^-41` times the stake of
all agents. -/
example : ∃ s : State B64, iterM exec (initState fourFloats) (turnsB [0, 1, 2, 3, 0, 1, 2, 3]) = .ok s ∧ s.pools.length = 3 ∧
    (s.pools.map (fun e => (s.heap e.2).stake.1)).sum ≤ allStake fourFloats * (1 + (2 : ℚ) ^ (-41 : Int)) + 12 * (2 : ℚ) ^ (-1075 : Int) := by
  have key : (iterM exec (initState fourFloats) (turnsB [0, 1, 2, 3, 0, 1, 2, 3])).toOption.map (fun s => s.pools.length) = some 3 := by
    decide +kernel
  cases hs : iterM exec (initState fourFloats) (turnsB [0, 1, 2, 3, 0, 1, 2, 3]) with
  | error e => rw [hs] at key; cases key
  | ok s =>
    rw [hs] at key
    refine ⟨s, rfl, by simpa [Except.toOption] using key, ?_⟩
    have hv : ∀ ev ∈ turnsB [0, 1, 2, 3, 0, 1, 2, 3], ev.Valid fourFloats.people.length ∧ ∀ p, ev ≠ .phase p := by
      intro e he
      obtain ⟨a, ha, rfl⟩ := List.mem_map.1 he
      refine ⟨⟨?_, fun _ => List.Perm.refl _⟩, fun p => by simp⟩
      change a < 4
      simp at ha
      omega
    have hm : ((turnsB [0, 1, 2, 3, 0, 1, 2, 3]).map rounds64).sum = 64 := by simp [turnsB, rounds64]
    have h := C104_pool_stakes rfl (by decide +kernel) (by decide +kernel) (fun ev he => (hv ev he).1) (by rw [hm]; norm_num) (atMost_single hv) hs
    rw [hm, show fourFloats.people.length = 4 from rfl, show fourFloats.rs.k = 2 from rfl] at h
    have hT : 0 ≤ allStake fourFloats := by decide +kernel
    refine h.trans ?_
    refine add_le_add (mul_le_mul_of_nonneg_left ?_ hT) (le_of_eq ?_)
    · norm_num
    · push_cast; ring

end RSE.Props
