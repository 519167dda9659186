import Verif.Lemmas.PrivateFloats
import Verif.Props.Drift

/-!
# C106: private pools in floating point

In exact arithmetic a private pool has no delegators (C24).  The code expels the delegators of a pool that becomes private only if the stake of the pool is
larger than its pledge, and in floating point it need not be.
-/

set_option linter.unusedSectionVars false

namespace RSE.Props

open RSE

section
variable {F : Type} [LinearOrder F] [Zero F] [One F] [Add F] [Sub F] [Mul F] [Div F] [Neg F] [NatCast F] [FSum F]

/-- C106.  In any arithmetic (sequential or random activation): nobody ever starts to delegate to a private pool, nor changes a delegation to it.  If a pool is private
after an event, every delegation to it was there, with the same amount, before the event. -/
theorem C106_no_new_delegations (hmin : (0 : F) < minUnit) {c : Config F} (hc : c.simultaneous = false) {s s' : State F} (h : Reachable c s) {ev : Event F}
    (hv : ev.Valid c.people.length) (he : exec s ev = .ok s') {pid : Nat} {r : Ref} (hp : s'.pools.get? pid = some r) (hpr : (s'.heap r).isPrivate = true)
    {b : Nat} {x : F} (hx : Says s' b pid x) : Says s b pid x := by
  have hsays : ∀ t : State F, Says t b pid x ↔ allocOf t b pid = some x := by
    intro t
    constructor
    · rintro ⟨ag, σ, ha, hσ, hx⟩
      rw [allocOf_eq_allocsOf ha]; simp [allocsOf, hσ, hx]
    · intro hx
      unfold allocOf at hx
      cases ha : t.agents.get? b with
      | none => rw [ha] at hx; cases hx
      | some ag =>
        rw [ha] at hx
        cases hσ : ag.strategy with
        | none => simp [hσ] at hx
        | some σ => exact ⟨ag, σ, ha, hσ, by simpa [hσ] using hx⟩
  rw [hsays] at hx ⊢
  cases (((h.good hmin).exec hmin hv).of_ok he).1.privateFate hmin h hc hv hp hpr with
  | none hn => rw [hn b] at hx; cases hx
  | old _ _ _ h3 => exact h3 b x hx
  | low _ _ _ _ _ _ _ _ _ _ _ _ h3 => exact h3 b x hx

end

/-- C106.  In binary64, with sequential or random activation: the delegations to a private pool add up to at most `(1 + 2^-53)^m - 1` times twice the stake of all
agents, where `m` is eight times the number of turns. -/
theorem C106_small {c : Config B64} (h0 : ∀ e ∈ c.people, 0 ≤ e.1) (hb : 0 ≤ c.rs.beta) (hc : c.simultaneous = false) {es : List (Event B64)}
    (hv : ∀ ev ∈ es, ev.Valid c.people.length) {s : State B64} (hs : iterM exec (initState c) es = .ok s) {pid : Nat} {r : Ref}
    (hp : s.pools.get? pid = some r) (hpr : (s.heap r).isPrivate = true) :
    ((s.heap r).delegators.map (fun e => e.2.1)).sum ≤ ((1 + (2 : ℚ) ^ (-53 : Int)) ^ (es.map rounds64).sum - 1) * (2 * allStake c) := by
  have hg := driftOK_graded h0
  have h := run_privateLow h0 hb hc es (n := 0) (Reachable.init c) (fun _ => hg.blank) (fun pid r hp => by cases hp) hv hs pid r hp hpr
  rw [rounds64_cost]
  rw [Nat.zero_add] at h
  exact h

/-- C106.  ... as long as there are at most `2^52` roundings, to at most `m * 2^-51` times the stake of all agents. -/
theorem C106_linear {c : Config B64} (h0 : ∀ e ∈ c.people, 0 ≤ e.1) (hb : 0 ≤ c.rs.beta) (hc : c.simultaneous = false) {es : List (Event B64)}
    (hv : ∀ ev ∈ es, ev.Valid c.people.length) (hm : (es.map rounds64).sum ≤ 2 ^ 52) {s : State B64} (hs : iterM exec (initState c) es = .ok s) {pid : Nat} {r : Ref}
    (hp : s.pools.get? pid = some r) (hpr : (s.heap r).isPrivate = true) :
    ((s.heap r).delegators.map (fun e => e.2.1)).sum ≤ (es.map rounds64).sum * (2 : ℚ) ^ (-51 : Int) * allStake c := by
  refine (C106_small h0 hb hc hv hs hp hpr).trans ?_
  have hT : 0 ≤ allStake c := by
    refine List.sum_nonneg fun x hx => ?_
    obtain ⟨e, he, rfl⟩ := List.mem_map.1 hx
    exact h0 e he
  have hm' : ((es.map rounds64).sum : ℚ) ≤ 2 ^ 52 := by exact_mod_cast hm
  have := pow_sub_one_le (u := (2 : ℚ) ^ (-53 : Int)) (by positivity) (m := (es.map rounds64).sum) (by
    calc ((es.map rounds64).sum : ℚ) * (2 : ℚ) ^ (-53 : Int) ≤ 2 ^ 52 * (2 : ℚ) ^ (-53 : Int) := by gcongr
      _ ≤ 1 / 2 := by norm_num)
  calc _ ≤ 2 * ((es.map rounds64).sum : ℚ) * (2 : ℚ) ^ (-53 : Int) * (2 * allStake c) := by gcongr
    _ = _ := by norm_num; ring

/-- three agents, the second one with a stake of `3 * 10^-17`; first `k = 1` -/
def lodgerFloats : Config B64 :=
  { rs := { scheme := .cardano, k := 1, beta := 1, a0 := flt 8 10 }, relThr := 0, absThr := 0, extraFrac := 1, simultaneous := false,
    people := [(flt 6 10, flt 15 100, .nonMyopic), (flt 3 (10 ^ 17), flt 9 10, .nonMyopic), (flt 4 10, flt 1 10, .nonMyopic)], totalStake := 1 }

/-- the first agent opens a pool, the second one delegates to it; then `k = 2`; the third one opens two pools; the first one moves again -/
def lodgerEvents : List (Event B64) := turnsB [0, 1] ++ [.phase { k := some 2 }] ++ turnsB [2, 0]

theorem lodger_valid : ∀ ev ∈ lodgerEvents, ev.Valid lodgerFloats.people.length := by
  intro ev hev
  simp only [lodgerEvents, turnsB, List.map_cons, List.map_nil, List.cons_append, List.nil_append, List.mem_cons, List.not_mem_nil, or_false] at hev
  rcases hev with rfl | rfl | rfl | rfl | rfl
  all_goals first | trivial | exact ⟨by decide, fun _ => List.Perm.refl _⟩

/-- C106.  C24 fails in binary64: in this run the first agent's pool is private, its stake is its pledge (1/2), and yet it has a delegator. -/
theorem C106_private_pool_with_delegator : ∃ s r, iterM exec (initState lodgerFloats) lodgerEvents = .ok s ∧ Reachable lodgerFloats s ∧
    s.pools.get? 1 = some r ∧ (s.heap r).isPrivate = true ∧ (s.heap r).pledge.1 = 1 / 2 ∧ (s.heap r).stake.1 = 1 / 2 ∧
    (s.heap r).delegators.map (fun e => e.1) = [1] ∧ Says s 1 1 (flt 3 (10 ^ 17)) := by
  have key : (iterM exec (initState lodgerFloats) lodgerEvents).toOption.map (fun s => ((s.pools.get? 1).map (fun r => ((s.heap r).isPrivate,
      [(s.heap r).pledge.1, (s.heap r).stake.1], (s.heap r).delegators.map (fun e => e.1))),
      (s.agents.get? 1).bind (fun ag => ag.strategy.bind (fun σ => (σ.allocs.get? 1).map (fun x => x.1))))) =
      some (some (true, [1 / 2, 1 / 2], [1]), some (flt 3 (10 ^ 17)).1) := by decide +kernel
  cases hs : iterM exec (initState lodgerFloats) lodgerEvents with
  | error e => rw [hs] at key; cases key
  | ok s =>
    rw [hs] at key
    simp only [Except.toOption, Option.map_some, Option.some.injEq, Prod.mk.injEq] at key
    obtain ⟨k1, k2⟩ := key
    cases hp : s.pools.get? 1 with
    | none => rw [hp] at k1; cases k1
    | some r =>
      rw [hp] at k1
      simp only [Option.map_some, Option.some.injEq, Prod.mk.injEq, List.cons.injEq, and_true] at k1
      refine ⟨s, r, rfl, ⟨lodgerEvents, lodger_valid, hs⟩, hp, k1.1, k1.2.1.1, k1.2.1.2, k1.2.2, ?_⟩
      cases ha : s.agents.get? 1 with
      | none => rw [ha] at k2; cases k2
      | some ag =>
        rw [ha] at k2
        cases hσ : ag.strategy with
        | none => simp [hσ] at k2
        | some σ =>
          cases hx : σ.allocs.get? 1 with
          | none => simp [hσ, hx] at k2
          | some x =>
            simp only [Option.bind_some, hσ, hx, Option.map_some, Option.some.injEq] at k2
            exact ⟨ag, σ, ha, hσ, by rw [hx, Subtype.ext k2]⟩

/-- the theorems apply to this run: the delegations to the private pool are at most `32 * 2^-51` -/
example : ∃ s r, iterM exec (initState lodgerFloats) lodgerEvents = .ok s ∧ s.pools.get? 1 = some r ∧
    0 < ((s.heap r).delegators.map (fun e => e.2.1)).sum ∧ ((s.heap r).delegators.map (fun e => e.2.1)).sum ≤ 33 * (2 : ℚ) ^ (-51 : Int) := by
  obtain ⟨s, r, h1, h2, h3, h4, -, -, h5, h6⟩ := C106_private_pool_with_delegator
  have hm : (lodgerEvents.map rounds64).sum = 32 := by decide
  have hb := C106_linear (c := lodgerFloats) (by decide +kernel) (by decide +kernel) rfl lodger_valid (by rw [hm]; norm_num) h1 h3 h4
  have hall : allStake lodgerFloats ≤ 33 / 32 := by decide +kernel
  refine ⟨s, r, h1, h3, ?_, ?_⟩
  · have hb0 : ∀ e ∈ (s.heap r).delegators, 0 < e.2.1 := by
      intro e he
      have := (h2.good (RoundedArith.minUnit_pos (F := B64)))
      have h7 := run_graded (driftOK_graded (c := lodgerFloats) (by decide +kernel)) (by decide +kernel) (by decide +kernel) lodgerEvents (n := 0) (Reachable.init _)
        (fun _ => (driftOK_graded (c := lodgerFloats) (by decide +kernel)).blank) lodger_valid h1 r
      obtain ⟨y, -, h8, -⟩ := h7.amounts e he
      exact lt_of_lt_of_le (RoundedArith.minUnit_pos (F := B64)) h8
    cases hd : (s.heap r).delegators with
    | nil => rw [hd] at h5; cases h5
    | cons e t =>
      rw [hd] at h5
      simp only [List.map_cons, List.cons.injEq, List.map_eq_nil_iff] at h5
      have := hb0 e (by rw [hd]; exact List.mem_cons_self)
      simpa [h5.2] using this
  · refine hb.trans ?_
    rw [hm]
    calc ((32 : Nat) : ℚ) * (2 : ℚ) ^ (-51 : Int) * allStake lodgerFloats ≤ ((32 : Nat) : ℚ) * (2 : ℚ) ^ (-51 : Int) * (33 / 32) := by gcongr
      _ = _ := by norm_num

end RSE.Props
