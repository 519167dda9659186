import Verif.Props.PhaseValues
import Mathlib.Data.Rat.Floor

/-!
# C77: arguments that the command line accepts but the constructor does not; examples for C77, C78 and C79
-/

set_option linter.unusedSectionVars false

namespace RSE.Props

variable {K : Type} [Field K] [LinearOrder K] [IsStrictOrderedRing K] [FloorSemiring K]

/-- what the constructor does after it has read the arguments that may be lists -/
theorem construct_head {a a' : Args K} {d : Draws K} {n : Nat} (h : Accepted a' d n) (e1 : a.n = a'.n) (e2 : a.k = a'.k) (e3 : a.a0 = a'.a0)
    (e4 : a.relThr = a'.relThr) (e5 : a.absThr = a'.absThr) (e6 : a.maxIter = a'.maxIter) (e7 : a.extraFrac = a'.extraFrac)
    (e8 : a.order = a'.order) (e9 : a.scheme = a'.scheme) :
    ∃ (rs : RS K) (rel abs ex : K) (mi : Int) (o : Order), 1 ≤ rs.k ∧ construct a d = (do
      let rs ← if a.known then rs.inflate a.inactive else .ok rs
      let stakes ← rawStakes a.source n d
      let costs ← costsUniform n a.costMin a.costMax d.cost
      let idx ← choices 3 (a.weights.getD [1, 0, 0]) n d.profile
      let profiles ← idx.mapM profileOf
      let (new, total) ← shareOut stakes n a.inactive
      let desc ← initDesc (initState (⟨rs, rel, abs, ex, o.isSimultaneous, new.zip (costs.zip profiles), total⟩ : Config K))
      let cols ← columns (a.metrics.getD defaultMetrics)
      return ⟨⟨rs, rel, abs, ex, o.isSimultaneous, new.zip (costs.zip profiles), total⟩, n, o, mi, a.totalPhases, cols, desc⟩) := by
  obtain ⟨k, k1, k2⟩ := multi_first h.k
  obtain ⟨x0, a1, a2⟩ := multi_first h.a0
  obtain ⟨rel, r1, r2⟩ := multi_first h.relThr
  obtain ⟨ab, b1, b2⟩ := multi_first h.absThr
  obtain ⟨mi, m1, m2⟩ := multi_first h.maxIter
  obtain ⟨ex, x1, x2⟩ := multi_first h.extraFrac
  obtain ⟨o, o1, -⟩ := multi_first h.order
  have n1 : a.n.first = .ok n := by rw [e1, h.n]; rfl
  have hsch : makeScheme a.scheme = .ok a.scheme := (C44_schemes a.scheme).1.2 (e9 ▸ h.scheme)
  have hk0 : (0 : K) < k := by exact_mod_cast k2
  have hset : (⟨schemeOf a.scheme, 0, 0, 0⟩ : RS K).setKValue (k : K) = .ok ⟨schemeOf a.scheme, k, 1 / k, 0⟩ := by
    simp [RS.setKValue, hk0.ne']
  rw [← e2] at k1; rw [← e3] at a1; rw [← e4] at r1; rw [← e5] at b1; rw [← e6] at m1; rw [← e7] at x1; rw [← e8] at o1
  refine ⟨⟨schemeOf a.scheme, k, 1 / k, x0⟩, rel, ab, ex, mi, o, k2, ?_⟩
  unfold construct
  simp only [hsch, n1, k1, hset, a1, r1, b1, m1, x1, o1, bind, Except.bind]

/-- C77.  `--reward_scheme 3` is accepted by the command line but raises `TypeError`; a number above 4 raises `KeyError`. -/
theorem C77_rejects_scheme (a : Args K) (d : Draws K) : (a.scheme = 3 → construct a d = .error .type) ∧ (4 < a.scheme → construct a d = .error .key) := by
  constructor
  · intro h
    have h1 : makeScheme a.scheme = .error .type := (C44_schemes a.scheme).2.1.2 h
    unfold construct
    rw [h1]; rfl
  · intro h
    have h1 : makeScheme a.scheme = .error .key := (C44_schemes a.scheme).2.2.2 h
    unfold construct
    rw [h1]; rfl

/-- C77.  A fraction of inactive stake equal to 1 raises `ZeroDivisionError`. -/
theorem C77_rejects_inactive {a : Args K} {d : Draws K} {n : Nat} (h : Accepted { a with inactive := 0 } d n) (hf : a.inactive = 1) :
    construct a d = .error .zeroDiv := by
  obtain ⟨rs, rel, ab, ex, mi, o, -, he⟩ := construct_head (a := a) h rfl rfl rfl rfl rfl rfl rfl rfl rfl
  rw [he]
  by_cases hkn : a.known = true
  · rw [if_pos hkn]
    simp only [RS.inflate, pyDiv, hf, sub_self, if_true, bind, Except.bind]
  · obtain ⟨b, hb, hF⟩ := C77_constructor h
    obtain ⟨stakes, s1, s2, s3⟩ := rawStakes_ok h
    have s1 : rawStakes a.source n d = .ok stakes := s1
    obtain ⟨costs, c1, c2, c3⟩ := C69_uniform n a.costMin a.costMax d.cost h.cost h.costs
    have hw : (a.weights.getD [1, 0, 0]).length = 3 ∧ (∀ x ∈ a.weights.getD [1, 0, 0], 0 ≤ x) ∧ 0 < (a.weights.getD [1, 0, 0]).sum := by
      cases hw : a.weights with
      | none => simp
      | some w => exact h.weights w hw
    obtain ⟨idx, i1, i2, i3⟩ := C77_choices _ hw.2.1 hw.2.2 n d.profile h.profile
    rw [hw.1] at i1
    have hsh : shareOut stakes n a.inactive = .error .zeroDiv := by
      unfold shareOut
      rw [if_neg (by omega), hf, sub_self]
      simp [pyDiv, bind, Except.bind]
    cases hp : idx.mapM profileOf with
    | ok profiles =>
      simp only [if_neg hkn, s1, c1, i1, hp, hsh, bind, Except.bind]
    | error e =>
      exfalso
      obtain ⟨rs', rel', ab', ex', mi', o', -, he'⟩ := construct_head (a := { a with inactive := 0 }) h rfl rfl rfl rfl rfl rfl rfl rfl rfl
      rw [hb] at he'
      simp only [if_neg hkn, s1, c1, i1, hp, bind, Except.bind] at he'
      cases he'

/-- C77.  A minimum cost above the maximum cost raises `ValueError`. -/
theorem C77_rejects_costs {a : Args K} {d : Draws K} {n : Nat} (h : Accepted { a with costMax := a.costMin } d n) (hc : a.costMax < a.costMin) :
    construct a d = .error .value := by
  obtain ⟨rs, rel, ab, ex, mi, o, hk, he⟩ := construct_head (a := a) h rfl rfl rfl rfl rfl rfl rfl rfl rfl
  obtain ⟨stakes, s1, s2, s3⟩ := rawStakes_ok h
  have s1 : rawStakes a.source n d = .ok stakes := s1
  have hcost : costsUniform n a.costMin a.costMax d.cost = .error .value := if_pos hc
  rw [he]
  by_cases hkn : a.known = true
  · obtain ⟨rs', q1, -⟩ := C45_inflate rs a.inactive h.inactive.2 hk
    simp only [if_pos hkn, q1, s1, hcost, bind, Except.bind]
  · simp only [if_neg hkn, s1, hcost, bind, Except.bind]

/-- C77.  Weights of the profiles that are all zero raise `ValueError`. -/
theorem C77_rejects_weights {a : Args K} {d : Draws K} {n : Nat} (h : Accepted { a with weights := none } d n) (hw : a.weights = some [0, 0, 0]) :
    construct a d = .error .value := by
  obtain ⟨rs, rel, ab, ex, mi, o, hk, he⟩ := construct_head (a := a) h rfl rfl rfl rfl rfl rfl rfl rfl rfl
  obtain ⟨stakes, s1, s2, s3⟩ := rawStakes_ok h
  have s1 : rawStakes a.source n d = .ok stakes := s1
  obtain ⟨costs, c1, c2, c3⟩ := C69_uniform n a.costMin a.costMax d.cost h.cost h.costs
  have hch : choices 3 (a.weights.getD [1, 0, 0]) n d.profile = .error .value := by
    rw [hw]; simp [choices, accumulate]
  rw [he]
  by_cases hkn : a.known = true
  · obtain ⟨rs', q1, -⟩ := C45_inflate rs a.inactive h.inactive.2 hk
    simp only [if_pos hkn, q1, s1, c1, hch, bind, Except.bind]
  · simp only [if_neg hkn, s1, c1, hch, bind, Except.bind]

/-- C77.  Three agents and the stakes "disparity" raise `ZeroDivisionError`. -/
theorem C77_rejects_disparity {a : Args K} {d : Draws K} (h : Accepted { a with source := .flat } d 3) (hs : a.source = .disparity) :
    construct a d = .error .zeroDiv := by
  obtain ⟨rs, rel, ab, ex, mi, o, hk, he⟩ := construct_head (a := a) h rfl rfl rfl rfl rfl rfl rfl rfl rfl
  have s1 : rawStakes a.source 3 d = .error .zeroDiv := by
    rw [hs]
    simp [rawStakes, stakesDisparity, pyDiv, natDiff, bind, Except.bind]
  rw [he]
  by_cases hkn : a.known = true
  · obtain ⟨rs', q1, -⟩ := C45_inflate rs a.inactive h.inactive.2 hk
    simp only [if_pos hkn, q1, s1, bind, Except.bind]
  · simp only [if_neg hkn, s1, bind, Except.bind]

/-! ### Examples -/

/-- twelve agents, two phases that relax `k` and `a0`, a tenth of the stake inactive -/
def cliArgs : Args ℚ where
  n := .one 12
  k := .many [5, 3]
  a0 := .many [3 / 10, 1 / 10, 0]
  relThr := .one 0
  absThr := .one (1 / 10 ^ 9)
  maxIter := .one 50
  extraFrac := .one (2 / 5)
  order := .one .random
  scheme := 0
  weights := some [7, 2, 1]
  inactive := 1 / 10
  known := false
  costMin := 1 / 10 ^ 5
  costMax := 2 / 10 ^ 3
  source := .pareto
  metrics := some [1, 2, 6, 17]
  conv := 10

def cliDraws : Draws ℚ where
  pareto := fun i => i / 7
  file := []
  choice := fun _ => 0
  cost := fun i => (i % 5 : Nat) / 5
  profile := fun i => (i % 10 : Nat) / 10

def cliTurns : Turns := ⟨fun _ l => l.reverse, fun _ l m => l.take m, fun _ _ _ l => l⟩

theorem cli_accepted : Accepted cliArgs cliDraws 12 where
  n := rfl
  n_pos := by decide
  k := by simp [Multi.All, cliArgs]
  a0 := by simp [Multi.All, cliArgs]; norm_num
  relThr := le_rfl
  absThr := by simp [Multi.All, cliArgs]
  maxIter := by simp [Multi.All, cliArgs]
  extraFrac := by simp [Multi.All, cliArgs]; norm_num
  order := trivial
  scheme := .inl rfl
  weights := by
    intro w hw
    obtain rfl : [7, 2, 1] = w := Option.some.inj hw
    norm_num
  inactive := by norm_num [cliArgs]
  costMin := by norm_num [cliArgs]
  costs := by norm_num [cliArgs]
  metrics := by
    intro l hl
    obtain rfl : [1, 2, 6, 17] = l := Option.some.inj hl
    decide
  disparity := by simp [cliArgs]
  file := by simp [cliArgs]
  pareto := fun i => by change (0 : ℚ) ≤ i / 7; positivity
  cost := fun i => by
    have h : i % 5 < 5 := Nat.mod_lt _ (by decide)
    have h' : ((i % 5 : Nat) : ℚ) < 5 := by exact_mod_cast h
    exact ⟨by change (0 : ℚ) ≤ ((i % 5 : Nat) : ℚ) / 5; positivity, by change ((i % 5 : Nat) : ℚ) / 5 < 1; linarith⟩
  profile := fun i => by
    have h : i % 10 < 10 := Nat.mod_lt _ (by decide)
    have h' : ((i % 10 : Nat) : ℚ) < 10 := by exact_mod_cast h
    exact ⟨by change (0 : ℚ) ≤ ((i % 10 : Nat) : ℚ) / 10; positivity, by change ((i % 10 : Nat) : ℚ) / 10 < 1; linarith⟩

theorem cliTurns_ok : TurnsOK cliTurns := by
  refine ⟨fun _ l => List.reverse_perm l, ?_, fun _ _ _ l => .refl l⟩
  intro i l k hl hk
  exact ⟨by simp [cliTurns, hk], hl.sublist (List.take_sublist k l), fun x hx => List.mem_of_mem_take hx⟩

theorem cli_relaxing : Relaxing cliArgs := by
  constructor
  · intro p x y h1 h2
    match p with
    | 0 => cases h1; cases h2; decide
    | p + 1 =>
      have e1 : cliArgs.k.value (p + 1) = some 3 := by
        change ([5, 3] : List Nat)[min (p + 1) 1]? = _
        rw [show min (p + 1) 1 = 1 by omega]; rfl
      have e2 : cliArgs.k.value (p + 1 + 1) = some 3 := by
        change ([5, 3] : List Nat)[min (p + 1 + 1) 1]? = _
        rw [show min (p + 1 + 1) 1 = 1 by omega]; rfl
      rw [e1] at h1; rw [e2] at h2; cases h1; cases h2; exact le_rfl
  · intro p x y h1 h2
    change y ≤ x
    match p with
    | 0 => cases h1; cases h2; norm_num
    | 1 => cases h1; cases h2; norm_num
    | p + 2 =>
      have e1 : cliArgs.a0.value (p + 2) = some 0 := by
        change ([3 / 10, 1 / 10, 0] : List ℚ)[min (p + 2) 2]? = _
        rw [show min (p + 2) 2 = 2 by omega]; rfl
      have e2 : cliArgs.a0.value (p + 2 + 1) = some 0 := by
        change ([3 / 10, 1 / 10, 0] : List ℚ)[min (p + 2 + 1) 2]? = _
        rw [show min (p + 2 + 1) 2 = 2 by omega]; rfl
      rw [e1] at h1; rw [e2] at h2; cases h1; cases h2; exact le_rfl

example : ∃ b, construct cliArgs cliDraws = .ok b ∧ Faithful cliArgs cliDraws 12 b := C77_constructor cli_accepted

example : ∃ b l, construct cliArgs cliDraws = .ok b ∧ simulate cliArgs cliDraws (fun _ => 0) cliTurns 51 = .ok l ∧ Completed b id id 50 l :=
  C78_completes_phases cli_accepted cli_relaxing rfl rfl rfl (.inl rfl) rfl (fun h => by cases h) cliTurns_ok _ id id

example : Accepted { { cliArgs with source := .flat, n := .one 3 } with inactive := 0 } cliDraws 3 :=
  { cli_accepted with n := rfl, n_pos := by decide, disparity := by simp, file := by simp, inactive := by norm_num }

example {b : Built ℚ} (hb : construct cliArgs cliDraws = .ok b) {l : Loop (Nat × Nat × State ℚ) (List (MetricValue ℚ))}
    (hl : Reached (runEnv cliArgs b (fun _ => 0) cliTurns) { Loop.init (0, b.n, initState b.config) b.maxIter with world := (0, b.n, { initState b.config with idSeq := 0 }) } l)
    (h1 : l.phase = 1) : l.world.2.2.rs.k = 3 ∧ l.world.2.2.rs.a0 = 1 / 10 := by
  have h := (C79_values_in_force cli_accepted rfl cliTurns_ok hb hl).1
  rw [h1] at h
  exact ⟨(Option.some.inj (h.k (.inl rfl)).1).symm, (Option.some.inj h.a0).symm⟩

end RSE.Props
