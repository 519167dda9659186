import Verif.Lemmas.Rename
import Verif.Props.EndToEnd
import Verif.Props.Equilibrium

/-!
# C84: simulations that never converge; C85: ids and objects are only names

By `Lemmas/Rename.lean` the simulation does not depend on which ids pools have, as long as the ids are in the same order, nor on which objects
represent them.  So a simulation that comes back to a state that differs from an earlier one only in these names repeats itself for ever.  `two` is a
simulation with two agents that does so: there is no number of iterations after which it has converged.
-/

set_option linter.unusedSectionVars false

namespace RSE.Props

section Cycle
variable {F : Type} [LinearOrder F] [Zero F] [One F] [Add F] [Sub F] [Mul F] [Div F] [Neg F] [NatCast F] [FSum F]

/-- `n` rounds in which the agents act in the order `order`, in each of which somebody changes its strategy; they lead from `s` to `t` -/
inductive BusyRounds (ord : List Nat → List Nat) (order : List Nat) : Nat → State F → State F → Prop
  | nil {s} : BusyRounds ord order 0 s s
  | cons {n s s' t} : roundSequential (fun _ => ord) order s = .ok s' → s'.idle = false → BusyRounds ord order n { s' with idle := true } t →
      BusyRounds ord order (n + 1) s t

theorem BusyRounds.trans {ord : List Nat → List Nat} {order : List Nat} {n m : Nat} {s t u : State F} (h : BusyRounds ord order n s t)
    (g : BusyRounds ord order m t u) : BusyRounds ord order (n + m) s u := by
  induction h with
  | nil => rw [Nat.zero_add]; exact g
  | cons h1 h2 _ ih => rw [Nat.add_right_comm]; exact .cons h1 h2 (ih g)

theorem BusyRounds.take {ord : List Nat → List Nat} {order : List Nat} {n : Nat} : ∀ {m : Nat} {s t : State F}, m ≤ n → BusyRounds ord order n s t →
    ∃ u, BusyRounds ord order m s u := by
  induction n with
  | zero => intro m s t hm h; obtain rfl : m = 0 := by omega
            exact ⟨s, .nil⟩
  | succ n ih =>
    intro m s t hm h
    cases m with
    | zero => exact ⟨s, .nil⟩
    | succ m =>
      cases h with
      | cons h1 h2 h3 =>
        obtain ⟨u, hu⟩ := ih (Nat.le_of_succ_le_succ hm) h3
        exact ⟨u, .cons h1 h2 hu⟩

theorem round_alike {ρ : Naming} {ord : List Nat → List Nat} (hord : ∀ l, ord (l.map ρ.g) = (ord l).map ρ.g) (order : List Nat) {s s' : State F}
    (h : Renamed ρ s s') : Rel (Renamed ρ) (roundSequential (fun _ => ord) order s) (roundSequential (fun _ => ord) order s') := by
  unfold roundSequential
  generalize order.zipIdx = l
  induction l generalizing s s' with
  | nil => exact h
  | cons e l ih =>
    unfold iterM
    exact Rel.bind (agentStep_alike hord h e.1) (fun _ _ _ _ h₁ => ih h₁)

theorem BusyRounds.alike {ρ : Naming} {ord : List Nat → List Nat} (hord : ∀ l, ord (l.map ρ.g) = (ord l).map ρ.g) {order : List Nat} {n : Nat}
    {s t : State F} (h : BusyRounds ord order n s t) : ∀ {s' : State F}, Renamed ρ s s' → ∃ t', BusyRounds ord order n s' t' ∧ Renamed ρ t t' := by
  induction h with
  | nil => intro s' ha; exact ⟨s', .nil, ha⟩
  | @cons n s s₁ t h1 h2 _ ih =>
    intro s' ha
    have hr := round_alike hord order ha
    rw [h1] at hr
    cases hs' : roundSequential (fun _ => ord) order s' with
    | error e => rw [hs'] at hr; exact hr.elim
    | ok s₁' =>
      rw [hs'] at hr
      have hr : Renamed ρ s₁ s₁' := hr
      obtain ⟨t', g1, g2⟩ := ih (hr.withIdle true)
      exact ⟨t', .cons hs' (hr.idle.trans h2) g1, g2⟩

/-- C84.  If some rounds, all of them busy, lead from a state to one that differs from it only in the names of pools, then from that state all rounds
are busy, for ever. -/
theorem C84_cycle {ρ : Naming} {ord : List Nat → List Nat} (hord : ∀ l, ord (l.map ρ.g) = (ord l).map ρ.g) {order : List Nat} {p : Nat} (hp : 0 < p)
    {s t : State F} (h : BusyRounds ord order p s t) (ha : Renamed ρ s t) (n : Nat) : ∃ u, BusyRounds ord order n s u := by
  induction n using Nat.strong_induction_on with
  | _ n ih =>
    by_cases hn : n ≤ p
    · exact h.take hn
    · obtain ⟨u, hu⟩ := ih (n - p) (by omega)
      obtain ⟨v, hv, -⟩ := hu.alike hord ha
      have := h.trans hv
      rw [show p + (n - p) = n by omega] at this
      exact ⟨v, this⟩

end Cycle

/-! ### Whole executions -/

section Runs
variable {W R : Type}

/-- the next `n` rounds can be run, and none of them is idle -/
def BusyFor (env : Env W R) : Nat → Nat → W → Prop
  | 0, _, w => ∃ row, env.report w = .ok row
  | n + 1, i, w => (∃ row, env.report w = .ok row) ∧ ∃ w', env.round i w = .ok w' ∧ env.idle w' = false ∧ BusyFor env n (i + 1) (env.rearm w')

/-- what is exported by a run of `m` rounds in which it never converged -/
structure Unfinished (m : Nat) (l : Loop W R) : Prop where
  /-- all rounds that were allowed took place -/
  steps : l.steps = m
  stopped : l.running = false
  /-- no equilibrium was noted -/
  eqSteps : l.eqSteps = []
  /-- no later phase was entered -/
  pivots : l.pivots = []
  phase : l.phase = 0
  /-- "Equilibrium reached: No" -/
  exports : l.exports = [false]

theorem loop_busy {env : Env W R} (hconv : 1 ≤ env.conv) (n : Nat) : ∀ {l : Loop W R}, BusyFor env n l.steps l.world → l.maxIter = l.steps + n →
    l.running = true → l.idleCount = 0 → l.eqSteps = [] → l.pivots = [] → l.phase = 0 → l.exports = [] →
    ∃ l', Loop.loop env (n + 1) l = .ok l' ∧ Unfinished (l.steps + n) l' := by
  induction n with
  | zero =>
    intro l ⟨row, hrow⟩ hm hr hi he hp hph hx
    refine ⟨({ l with rows := l.rows ++ [row] } : Loop W R).wrapUp env, ?_, rfl, rfl, he, hp, hph, ?_⟩
    · have hst : l.step env = .ok (({ l with rows := l.rows ++ [row] } : Loop W R).wrapUp env) := by
        unfold Loop.step
        rw [hrow]
        simp only [bind, Except.bind]
        rw [if_pos (by simp [hm])]
        rfl
      unfold Loop.loop
      rw [if_pos (by simp [hm, hr])]
      simp only [hst, bind, Except.bind]
      unfold Loop.loop
      rw [if_neg (by simp [Loop.wrapUp])]
    · simp only [Loop.wrapUp, hx, Loop.hasConverged, List.nil_append, hi]
      congr 1
      exact decide_eq_false (by push_cast; omega)
  | succ n ih =>
    intro l ⟨⟨row, hrow⟩, w', hw, hidle, hb⟩ hm hr hi he hp hph hx
    have hst : l.step env = .ok { l with rows := l.rows ++ [row], world := env.rearm w', steps := l.steps + 1, idleCount := 0 } := by
      unfold Loop.step
      rw [hrow]
      simp only [bind, Except.bind]
      rw [if_neg (by rw [hm]; push_cast; omega), hw]
      simp only [hidle]
      rfl
    obtain ⟨l', h1, h2⟩ := ih (l := { l with rows := l.rows ++ [row], world := env.rearm w', steps := l.steps + 1, idleCount := 0 })
      hb (by simp only [hm]; push_cast; omega) hr rfl he hp hph hx
    refine ⟨l', ?_, by rw [show l.steps + (n + 1) = l.steps + 1 + n by omega]; exact h2⟩
    unfold Loop.loop
    rw [if_pos (by simp [hm, hr]; omega)]
    simp only [hst, bind, Except.bind]
    exact h1

end Runs

section Executions
variable {K : Type} [Field K] [LinearOrder K] [IsStrictOrderedRing K]

theorem BusyRounds.busyFor {a : Args K} {d : Draws K} {n : Nat} {b : Built K} (hacc : Accepted a d n) (hf : Faithful a d n b)
    (hseq : b.order = .sequential) (hcip : b.config.rs.scheme = .cip50 → 0 < b.config.rs.a0) {t : Turns} {ord : List Nat → List Nat} (hp : ∀ l, (ord l).Perm l)
    (ht : ∀ i j, t.ords i 0 j = ord) (solver : State K → K) (m : Nat) : ∀ {s u : State K}, BusyRounds ord (List.range n) m s u →
    ReachableSinglePhase b.config s → ∀ i j, BusyFor (runEnv a b solver t) m i (j, n, s) := by
  have hrow : ∀ (s : State K), ReachableSinglePhase b.config s → ∀ j, ∃ row, (runEnv a b solver t).report (j, n, s) = .ok row := by
    intro s hs j
    obtain ⟨row, g, -⟩ := hf.row hacc (.of_single hs) (by rw [(hs.params minUnit_pos).rs]; exact hcip) ⟨n, j, solver⟩ rfl
    exact ⟨row, g⟩
  induction m with
  | zero => intro s u _ hs i j; exact hrow s hs j
  | succ m ih =>
    intro s u h hs i j
    cases h with
    | @cons _ _ s' _ h1 h2 h3 =>
      have hreach : ReachableSinglePhase b.config { s' with idle := true } := by
        obtain ⟨es, q1, q2⟩ := hs
        rw [round_steps] at h1
        refine ⟨es ++ ((List.range n).map (fun a => Event.step a ord) ++ [.roundEnd]), ?_, ?_⟩
        · intro e he
          rcases List.mem_append.1 he with he | he
          · exact q1 e he
          rcases List.mem_append.1 he with he | he
          · obtain ⟨x, hx, rfl⟩ := List.mem_map.1 he
            exact ⟨⟨by rw [hf.people]; exact List.mem_range.1 hx, hp⟩, fun p => by simp⟩
          · rw [List.mem_singleton.1 he]; exact ⟨trivial, fun p => by simp⟩
        · rw [iterM_append, q2]
          simp only [Except.bind]
          rw [iterM_append, h1]
          rfl
      refine ⟨hrow s hs j, (i + 1, n, s'), ?_, h2, ih h3 hreach (i + 1) (i + 1)⟩
      have hlen : s.agents.length = n := by rw [agents_length (.of_single hs), hf.people]
      change (do let s ← b.order.round s.agents.length t i s; return (i + 1, n, s) : Py (Nat × Nat × State K)) = _
      rw [hlen, hseq]
      have e : t.ords i 0 = fun _ => ord := funext (fun j => ht i j)
      simp only [Order.round, e, h1]
      rfl

/-- C84.  Accepted arguments (CIP-50: `a0 > 0`), sequential activation: if the simulation comes, in rounds that are not idle, to a state and back to one that differs from
it only in the names of pools, then it runs for all the iterations it is allowed and converges in none of them, however many these are. -/
theorem C84_cycle_runs [FloorSemiring K] {a : Args K} {d : Draws K} {n : Nat} (hacc : Accepted a d n) {b : Built K} (hb : construct a d = .ok b)
    (ho : a.order.first = .ok .sequential) {x0 : K} (hx : a.a0.first = .ok x0) (hsch : a.scheme = 4 → 0 < x0) (hconv : 1 ≤ a.conv) {m : Nat} (hm : a.maxIter.first = .ok (m : Int))
    {t : Turns} {ord : List Nat → List Nat} (hp : ∀ l, (ord l).Perm l) (ht : ∀ i j, t.ords i 0 j = ord)
    {ρ : Naming} (hord : ∀ l, ord (l.map ρ.g) = (ord l).map ρ.g) {p q : Nat} (hq : 0 < q) {s u : State K}
    (h1 : BusyRounds ord (List.range n) p (initState b.config) s) (h2 : BusyRounds ord (List.range n) q s u) (ha : Renamed ρ s u)
    (solver : State K → K) : ∃ l, simulate a d solver t (m + 1) = .ok l ∧ Unfinished m l := by
  obtain ⟨b', hb', hf⟩ := C77_constructor hacc
  rw [hb] at hb'
  cases hb'
  have hao : b.order = .sequential := by have := hf.order; rw [ho] at this; exact (Except.ok.inj this).symm
  have hmx : b.maxIter = m := by have := hf.maxIter; rw [hm] at this; exact (Except.ok.inj this).symm
  have hxa : b.config.rs.a0 = x0 := by have := hf.a0; rw [hx] at this; exact (Except.ok.inj this).symm
  have hcip : b.config.rs.scheme = .cip50 → 0 < b.config.rs.a0 := by
    intro h; rw [hf.scheme, schemeOf_cip hacc.scheme] at h; rw [hxa]; exact hsch h
  obtain ⟨v, hv⟩ := C84_cycle hord hq h2 ha m
  obtain ⟨v', hv'⟩ := (h1.trans hv).take (Nat.le_add_left m p)
  have hbusy := hv'.busyFor hacc hf hao hcip hp ht solver m ⟨[], by simp, rfl⟩ 0 0
  obtain ⟨l, hl, hun⟩ := loop_busy (env := runEnv a b solver t) hconv m (l := Loop.init (0, n, initState b.config) (m : Int)) hbusy
    (by simp [Loop.init]) rfl rfl rfl rfl rfl rfl
  refine ⟨l, ?_, by simpa [Loop.init] using hun⟩
  unfold simulate
  rw [hb]
  simp only [bind, Except.bind, hmx, hf.n]
  exact hl

end Executions

/-! ### A simulation that never converges -/

deriving instance DecidableEq for Pool
deriving instance DecidableEq for Strategy
deriving instance DecidableEq for Agent

/-- Two agents with equal stakes and costs 1/100 and 1/50, `k = 1`, `a0 = 0.3`; the default thresholds. -/
def twoArgs (m : Nat) (conv : Int) : Args ℚ :=
  { n := .one 2, k := .one 1, a0 := .one (3/10), relThr := .one 0, absThr := .one (1/10^9), maxIter := .one m, extraFrac := .one (1/2),
    order := .one .sequential, scheme := 0, weights := none, inactive := 0, known := false, costMin := 1/100, costMax := 3/100, source := .flat,
    metrics := none, conv := conv }

/-- the costs drawn are the lowest possible one and the middle one -/
def twoDraws : Draws ℚ :=
  { pareto := fun _ => 0, file := [], choice := fun _ => 0, cost := fun i => if i = 0 then 0 else 1/2, profile := fun _ => 0 }

def two : Config ℚ :=
  { rs := { scheme := .cardano, k := 1, beta := 1, a0 := 3/10 }, relThr := 0, absThr := 1/10^9, extraFrac := 1/2, simultaneous := false,
    people := [(1/2, 1/100, .nonMyopic), (1/2, 1/50, .nonMyopic)], totalStake := 1 }

theorem twoArgs_accepted {m : Nat} (hm : 1 ≤ m) (conv : Int) : Accepted (twoArgs m conv) twoDraws 2 where
  n := rfl
  n_pos := by decide
  k := by change 1 ≤ 1; decide
  a0 := by change (0:ℚ) ≤ 3/10; norm_num
  relThr := by change (0:ℚ) ≤ 0; norm_num
  absThr := by change (0:ℚ) ≤ 1/10^9; norm_num
  maxIter := by change (1:Int) ≤ (m : Int); omega
  extraFrac := by change (0:ℚ) ≤ 1/2; norm_num
  order := trivial
  scheme := .inl rfl
  weights := by intro w h; cases h
  inactive := by change (0:ℚ) ≤ 0 ∧ (0:ℚ) < 1; norm_num
  costMin := by change (0:ℚ) ≤ 1/100; norm_num
  costs := by change (1/100:ℚ) ≤ 3/100; norm_num
  metrics := by intro l h; cases h
  disparity := by intro h; cases h
  file := by intro h; cases h
  pareto := fun _ => le_rfl
  cost := by intro i; change (0:ℚ) ≤ (if i = 0 then 0 else 1/2) ∧ (if i = 0 then 0 else 1/2) < (1:ℚ); split <;> norm_num
  profile := fun _ => ⟨le_rfl, by change (0:ℚ) < 1; norm_num⟩

/-- what is compared of configurations -/
instance : DecidableEq (ℚ × ℚ × Profile) := instDecidableEqProd
deriving instance DecidableEq for RS
deriving instance DecidableEq for Config

theorem bind_map_congr {α β γ : Type} {x : Py α} {f : α → Py γ} {g : α → Py β} {φ : β → γ} (h : ∀ v, f v = (g v).map φ) :
    (x >>= f) = (x >>= g).map φ := by
  cases x with
  | error e => rfl
  | ok v => exact h v

theorem first_map_congr {α β γ : Type} {m m₀ : α} {f : α → Py γ} {g : α → Py β} {φ : β → γ} (h : f m = (g m₀).map φ) :
    ((Multi.one m).first >>= f) = ((Multi.one m₀).first >>= g).map φ := h

/-- the limit on iterations is only passed on -/
theorem construct_maxIter {K : Type} [Field K] [LinearOrder K] [IsStrictOrderedRing K] [FloorSemiring K] (a : Args K) (d : Draws K) {m₀ : Int}
    (h : a.maxIter = .one m₀) (m conv : Int) :
    construct { a with maxIter := .one m, conv := conv } d = (construct a d).map (fun b => { b with maxIter := m }) := by
  have hph : ({ a with maxIter := .one m, conv := conv } : Args K).totalPhases = a.totalPhases := by
    unfold Args.totalPhases; rw [h]; rfl
  unfold construct
  rw [hph, h]
  dsimp only
  repeat' first
    | (with_reducible refine bind_map_congr (fun _ => ?_))
    | (with_reducible refine first_map_congr ?_)
    | split
  all_goals rfl

theorem two_built {m : Nat} (hm : 1 ≤ m) (conv : Int) : ∃ b, construct (twoArgs m conv) twoDraws = .ok b ∧ b.config = two := by
  obtain ⟨b, hb, -⟩ := C77_constructor (twoArgs_accepted hm conv)
  refine ⟨b, hb, ?_⟩
  have key : construct (twoArgs m conv) twoDraws = (construct (twoArgs 1 1) twoDraws).map (fun b => { b with maxIter := m }) :=
    construct_maxIter (twoArgs 1 1) twoDraws rfl m conv
  have h1 : (construct (twoArgs 1 1) twoDraws).toOption.map (·.config) = some two := by decide +kernel
  rw [hb] at key
  cases hc : construct (twoArgs 1 1) twoDraws with
  | error e => rw [hc] at key; cases key
  | ok b' =>
    rw [hc] at key h1
    cases key
    exact Option.some.inj h1

/-- the state after `n` rounds of `two` -/
def twoRounds : Nat → State ℚ
  | 0 => initState two
  | n + 1 => match roundSequential (fun _ => id) (List.range 2) (twoRounds n) with
    | .ok s => { s with idle := true }
    | .error _ => initState two

/-- the names after two rounds and after four rounds -/
def twoNaming : Naming where
  f := fun r => if r = 2 then 6 else if r < 4 then r else r + 4
  g := fun p => if p ≤ 2 then p else p + 1
  f_inj := by
    intro a b h
    simp only at h
    repeat' split at h
    all_goals omega
  g_mono := by
    intro a b h
    simp only
    repeat' split
    all_goals omega
  g_zero := rfl

theorem two_heap_two (j : Nat) : (twoRounds 2).heap (j + 4) = blankPool 2 := by with_unfolding_all rfl
theorem two_heap_four (j : Nat) : (twoRounds 4).heap (j + 8) = blankPool 2 := by with_unfolding_all rfl

theorem two_renamed : Renamed twoNaming (twoRounds 2) (twoRounds 4) where
  rs := by decide +kernel
  relThr := by decide +kernel
  absThr := by decide +kernel
  extraFrac := by decide +kernel
  totalStake := by decide +kernel
  simultaneous := by decide +kernel
  agents := by decide +kernel
  pools := by decide +kernel
  heap := by
    intro r
    by_cases hr : r < 4
    · have : ∀ r < 4, (twoRounds 4).heap (twoNaming.f r) = twoNaming.pool ((twoRounds 2).heap r) := by decide +kernel
      exact this r hr
    · obtain ⟨j, rfl⟩ := Nat.exists_eq_add_of_le (Nat.le_of_not_lt hr)
      have h1 : twoNaming.f (4 + j) = j + 8 := by
        simp only [twoNaming]
        rw [if_neg (by omega), if_neg (by omega)]
        omega
      rw [h1, two_heap_four, Nat.add_comm 4 j, two_heap_two]
      rfl
  next := by
    intro j
    have h1 : (twoRounds 2).next = 4 := by decide +kernel
    have h2 : (twoRounds 4).next = 8 := by decide +kernel
    rw [h1, h2]
    simp only [twoNaming]
    rw [if_neg (by omega), if_neg (by omega)]
    omega
  rank := by decide +kernel
  rankM := by decide +kernel
  idSeq := by
    intro j
    have h1 : (twoRounds 2).idSeq = 2 := by decide +kernel
    have h2 : (twoRounds 4).idSeq = 3 := by decide +kernel
    rw [h1, h2]
    simp only [twoNaming]
    rw [if_neg (by omega)]
    omega
  idle := by decide +kernel

theorem twoRounds_busy (n : Nat) (h : (roundSequential (fun _ => id) (List.range 2) (twoRounds n)).toOption.map (·.idle) = some false) :
    BusyRounds id (List.range 2) 1 (twoRounds n) (twoRounds (n + 1)) := by
  cases hs : roundSequential (fun _ => id) (List.range 2) (twoRounds n) with
  | error e => rw [hs] at h; cases h
  | ok s =>
    rw [hs] at h
    refine .cons hs (Option.some.inj h) ?_
    have : twoRounds (n + 1) = { s with idle := true } := by simp only [twoRounds, hs]
    rw [this]
    exact .nil

/-- C84.  These arguments are accepted, and their execution never converges: whatever the limit on iterations and the number of idle rounds asked for,
all iterations are used up and no equilibrium is reported. -/
theorem C84_never_converges {m : Nat} (hm : 1 ≤ m) {conv : Int} (hconv : 1 ≤ conv) (solver : State ℚ → ℚ) (shuffle : Nat → List Nat → List Nat)
    (sample : Nat → List Nat → Nat → List Nat) :
    Accepted (twoArgs m conv) twoDraws 2 ∧
      ∃ l, simulate (twoArgs m conv) twoDraws solver ⟨shuffle, sample, fun _ _ _ => id⟩ (m + 1) = .ok l ∧ Unfinished m l := by
  refine ⟨twoArgs_accepted hm conv, ?_⟩
  obtain ⟨b, hb, hc⟩ := two_built hm conv
  have h0 := (twoRounds_busy 0 (by decide +kernel)).trans (twoRounds_busy 1 (by decide +kernel))
  have h2 := (twoRounds_busy 2 (by decide +kernel)).trans (twoRounds_busy 3 (by decide +kernel))
  refine C84_cycle_runs (twoArgs_accepted hm conv) hb rfl rfl (fun h => absurd (show (0 : Nat) = 4 from h) (by decide)) hconv rfl (ord := id) (fun _ => List.Perm.refl _) (fun _ _ => rfl)
    (ρ := twoNaming) (fun _ => rfl) (p := 2) (q := 2) (by decide) (s := twoRounds 2) (u := twoRounds 4) ?_ h2 two_renamed solver
  rw [hc]
  exact h0

end RSE.Props
