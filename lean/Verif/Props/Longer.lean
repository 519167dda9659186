import Verif.Lemmas.Longer
import Verif.Props.NoConvergence
import Verif.Props.Rejects

/-!
# C126: executions that go on for longer, or are observed more closely, are the same as far as both go
-/

set_option linter.unusedSectionVars false

namespace RSE.Props

variable {F : Type} [LinearOrder F] [Zero F] [One F] [Add F] [Sub F] [Mul F] [Div F] [Neg F] [NatCast F] [FSum F]

/-- the same simulation, as far as what is drawn at random and the values that are in force first are concerned; the lists of values for later phases, `max_iterations`, `iterations_after_convergence` and `metrics` may differ -/
structure SameStart (a a' : Args F) : Prop where
  n : a.n.first = a'.n.first
  k : a.k.first = a'.k.first
  a0 : a.a0.first = a'.a0.first
  relThr : a.relThr.first = a'.relThr.first
  absThr : a.absThr.first = a'.absThr.first
  extraFrac : a.extraFrac.first = a'.extraFrac.first
  order : a.order.first = a'.order.first
  scheme : a.scheme = a'.scheme
  weights : a.weights = a'.weights
  inactive : a.inactive = a'.inactive
  known : a.known = a'.known
  costMin : a.costMin = a'.costMin
  costMax : a.costMax = a'.costMax
  source : a.source = a'.source

theorem ok_bind {α β : Type} {x : Py α} {f : α → Py β} {v : α} {r : Py β} (h : x = .ok v) (h2 : f v = r) : (x >>= f) = r := by rw [h]; exact h2

theorem construct_tail {rs : RS F} {source : StakeSource} {n : Nat} {d : Draws F} {lo hi inactive rel abs extra : F} {weights : List F} {order : Order} {m m' : Int} {T T' : Nat} {M M' : List Nat}
    {cols : List String} (hc : columns M = .ok cols) {b' : Built F}
    (hb : (do
      let stakes ← rawStakes source n d
      let costs ← costsUniform n lo hi d.cost
      let idx ← choices 3 weights n d.profile
      let profiles ← idx.mapM profileOf
      let (new, total) ← shareOut stakes n inactive
      let config : Config F :=
        { rs := rs, relThr := rel, absThr := abs, extraFrac := extra, simultaneous := order.isSimultaneous,
          people := new.zip (costs.zip profiles), totalStake := total }
      let desc ← initDesc (initState config)
      let cols ← columns M'
      return { config := config, n := n, order := order, maxIter := m', totalPhases := T', cols := cols, desc := desc } : Py (Built F)) = .ok b') :
    (do
      let stakes ← rawStakes source n d
      let costs ← costsUniform n lo hi d.cost
      let idx ← choices 3 weights n d.profile
      let profiles ← idx.mapM profileOf
      let (new, total) ← shareOut stakes n inactive
      let config : Config F :=
        { rs := rs, relThr := rel, absThr := abs, extraFrac := extra, simultaneous := order.isSimultaneous,
          people := new.zip (costs.zip profiles), totalStake := total }
      let desc ← initDesc (initState config)
      let cols ← columns M
      return { config := config, n := n, order := order, maxIter := m, totalPhases := T, cols := cols, desc := desc } : Py (Built F)) =
    .ok { b' with maxIter := m, totalPhases := T, cols := cols } := by
  obtain ⟨_, e, hb⟩ := bind_ok hb
  refine ok_bind e ?_
  obtain ⟨_, e, hb⟩ := bind_ok hb
  refine ok_bind e ?_
  obtain ⟨_, e, hb⟩ := bind_ok hb
  refine ok_bind e ?_
  obtain ⟨_, e, hb⟩ := bind_ok hb
  refine ok_bind e ?_
  obtain ⟨⟨new, total⟩, e, hb⟩ := bind_ok hb
  refine ok_bind e ?_
  dsimp only at hb ⊢
  obtain ⟨_, e, hb⟩ := bind_ok hb
  refine ok_bind e ?_
  obtain ⟨_, -, hb⟩ := bind_ok hb
  refine ok_bind hc ?_
  cases hb
  rfl

theorem SameStart.construct [PyInt F] {a a' : Args F} (h : SameStart a a') {d : Draws F} {m : Int} (hm : a.maxIter.first = .ok m) {cols : List String}
    (hc : columns (a.metrics.getD defaultMetrics) = .ok cols) {b' : Built F} (hb : RSE.construct a' d = .ok b') :
    RSE.construct a d = .ok { b' with maxIter := m, totalPhases := a.totalPhases, cols := cols } := by
  unfold RSE.construct at hb ⊢
  rw [h.n, h.k, h.a0, h.relThr, h.absThr, h.extraFrac, h.order, h.scheme, h.weights, h.inactive, h.known, h.costMin, h.costMax, h.source, hm]
  dsimp only at hb ⊢
  obtain ⟨_, e, hb⟩ := bind_ok hb
  refine ok_bind e ?_
  obtain ⟨_, e, hb⟩ := bind_ok hb
  refine ok_bind e ?_
  obtain ⟨_, e, hb⟩ := bind_ok hb
  refine ok_bind e ?_
  obtain ⟨_, e, hb⟩ := bind_ok hb
  refine ok_bind e ?_
  obtain ⟨_, e, hb⟩ := bind_ok hb
  refine ok_bind e ?_
  obtain ⟨_, e, hb⟩ := bind_ok hb
  refine ok_bind e ?_
  obtain ⟨_, e, hb⟩ := bind_ok hb
  refine ok_bind e ?_
  obtain ⟨_, -, hb⟩ := bind_ok hb
  refine ok_bind rfl ?_
  obtain ⟨_, e, hb⟩ := bind_ok hb
  refine ok_bind e ?_
  obtain ⟨_, e, hb⟩ := bind_ok hb
  refine ok_bind e ?_
  by_cases hk : a'.known = true
  · rw [if_pos hk] at hb ⊢
    obtain ⟨_, e, hb⟩ := bind_ok hb
    refine ok_bind e ?_
    exact construct_tail hc hb
  · rw [if_neg hk] at hb ⊢
    obtain ⟨_, e, hb⟩ := bind_ok hb
    refine ok_bind e ?_
    exact construct_tail hc hb

/-! ### Rows with fewer columns -/

theorem mapM_all {α β : Type} {f : α → Py β} : ∀ {l : List α} {bs : List β}, l.mapM f = .ok bs → List.Forall₂ (fun x y => f x = .ok y) l bs
  | [], bs, h => by cases h; exact .nil
  | a :: t, bs, h => by
    rw [List.mapM_cons] at h
    obtain ⟨b, h1, h⟩ := bind_ok h
    obtain ⟨bs', h2, h⟩ := bind_ok h
    cases h
    exact .cons h1 (mapM_all h2)

theorem mapM_of_all {α β : Type} {f : α → Py β} : ∀ {l : List α}, (∀ x ∈ l, ∃ y, f x = .ok y) → ∃ bs, l.mapM f = .ok bs
  | [], _ => ⟨[], rfl⟩
  | a :: t, h => by
    obtain ⟨b, h1⟩ := h a (by simp)
    obtain ⟨bs, h2⟩ := mapM_of_all (fun x hx => h x (List.mem_cons_of_mem _ hx))
    exact ⟨b :: bs, by rw [List.mapM_cons]; exact ok_bind h1 (ok_bind h2 rfl)⟩

/-- The values of a row stand under the names `cols`, those of another under `cols'`: whatever stands under a name in the first stands under the same name in the second. -/
def PartOf {α : Type} (cols cols' : List String) (r r' : List α) : Prop :=
  r.length = cols.length ∧ r'.length = cols'.length ∧ ∀ e ∈ cols.zip r, e ∈ cols'.zip r'

theorem collect_part {env : MetricEnv F} {cols cols' : List String} (hsub : ∀ x ∈ cols, x ∈ cols') {s : State F} {r' : List (MetricValue F)} (h : collectRow env cols' s = .ok r') :
    ∃ r, collectRow env cols s = .ok r ∧ PartOf cols cols' r r' := by
  unfold collectRow at h ⊢
  have h' := mapM_all h
  have hget : ∀ x ∈ cols', ∃ y, reportColumn env s x = .ok y ∧ (x, y) ∈ cols'.zip r' := by
    clear h hsub
    induction h' with
    | nil => simp
    | cons h1 h2 ih =>
      intro x hx
      rcases List.mem_cons.1 hx with rfl | hx
      · exact ⟨_, h1, by simp⟩
      · obtain ⟨y, y1, y2⟩ := ih x hx
        exact ⟨y, y1, by simp [y2]⟩
  obtain ⟨r, hr⟩ := mapM_of_all (f := reportColumn env s) (l := cols) (fun x hx => by
    obtain ⟨y, hy, -⟩ := hget x (hsub x hx); exact ⟨y, hy⟩)
  refine ⟨r, hr, mapM_length hr, mapM_length h, ?_⟩
  rintro ⟨x, y⟩ he
  have hr' := mapM_all hr
  have hxy : reportColumn env s x = .ok y ∧ x ∈ cols := by
    clear hsub hr
    induction hr' with
    | nil => simp at he
    | cons h1 h2 ih =>
      rw [List.zip_cons_cons, List.mem_cons] at he
      rcases he with he | he
      · cases he; exact ⟨h1, by simp⟩
      · obtain ⟨i1, i2⟩ := ih he
        exact ⟨i1, by simp [i2]⟩
  obtain ⟨y', h1, h2⟩ := hget x (hsub x hxy.2)
  rw [hxy.1] at h1
  cases h1
  exact h2

theorem columns_sub {M M' : List Nat} (h : ∀ i ∈ M, i ∈ M') {cols' : List String} (hc : columns M' = .ok cols') : ∃ cols, columns M = .ok cols ∧ ∀ x ∈ cols, x ∈ cols' := by
  unfold columns at hc ⊢
  obtain ⟨names', h1, hc'⟩ := bind_ok hc
  clear hc
  cases hc'
  have h1' := mapM_all h1
  have hget : ∀ i ∈ M', ∃ y ∈ names', reporterName i = .ok y := by
    clear h h1
    induction h1' with
    | nil => simp
    | cons h1 h2 ih =>
      intro x hx
      rcases List.mem_cons.1 hx with rfl | hx
      · exact ⟨_, by simp, h1⟩
      · obtain ⟨y, y1, y2⟩ := ih x hx
        exact ⟨y, by simp [y1], y2⟩
  obtain ⟨names, h2⟩ := mapM_of_all (f := reporterName) (l := M) (fun x hx => by obtain ⟨y, -, hy⟩ := hget x (h x hx); exact ⟨y, hy⟩)
  refine ⟨_, ok_bind h2 rfl, fun x hx => ?_⟩
  rw [List.mem_eraseDups] at hx ⊢
  have h2' := mapM_all h2
  obtain ⟨i, hi, hx'⟩ : ∃ i ∈ M, reporterName i = .ok x := by
    clear h h2
    induction h2' with
    | nil => simp at hx
    | cons h3 h4 ih =>
      rcases List.mem_cons.1 hx with rfl | hx
      · exact ⟨_, by simp, h3⟩
      · obtain ⟨i, i1, i2⟩ := ih hx
        exact ⟨i, by simp [i1], i2⟩
  obtain ⟨y, y1, y2⟩ := hget i (h i hi)
  rw [hx'] at y2
  cases y2
  exact y1

/-! ### The comparison -/

theorem shorter_run [PyInt F] {a a' : Args F} (h : SameStart a a') {m : Int} (hm : a.maxIter = .one m) (h0 : 0 ≤ m) (hle : ∀ m', a'.maxIter.first = .ok m' → m ≤ m')
    (hconv : a.conv ≤ a'.conv) (hM : ∀ i ∈ a.metrics.getD defaultMetrics, i ∈ a'.metrics.getD defaultMetrics)
    (hph : a.totalPhases ≤ 1 ∨ (a.conv = a'.conv ∧ a.n = a'.n ∧ a.k = a'.k ∧ a.a0 = a'.a0 ∧ a.relThr = a'.relThr ∧ a.absThr = a'.absThr ∧ a.extraFrac = a'.extraFrac ∧ a.order = a'.order ∧
      ∃ m', a'.maxIter = .one m'))
    {d : Draws F} {solver : State F → F} {t : Turns} {fuel : Nat} {l' : Loop (Nat × Nat × State F) (List (MetricValue F))} (hl : simulate a' d solver t fuel = .ok l') :
    ∃ (b b' : Built F) (l : Loop (Nat × Nat × State F) (List (MetricValue F))), construct a d = .ok b ∧ construct a' d = .ok b' ∧ simulate a d solver t fuel = .ok l ∧
      (a.metrics = a'.metrics → b.cols = b'.cols) ∧
      (Level (PartOf b.cols b'.cols) l l' ∨ (l.running = false ∧ Shorter (PartOf b.cols b'.cols) (runEnv a b solver t) (runEnv a' b' solver t) l l')) := by
  unfold simulate at hl
  obtain ⟨b', hb', hl⟩ := bind_ok hl
  have hsh := shape_of_construct hb'
  obtain ⟨cols, hc, hsub⟩ := columns_sub hM hsh.cols
  have hb := h.construct (m := m) (by rw [hm]; rfl) hc hb'
  refine ⟨{ b' with maxIter := m, totalPhases := a.totalPhases, cols := cols }, b', ?_⟩
  have he : (runEnv a { b' with maxIter := m, totalPhases := a.totalPhases, cols := cols } solver t).StopsEarlier (PartOf cols b'.cols) (runEnv a' b' solver t) := by
    refine ⟨rfl, rfl, rfl, rfl, fun w r' hr => collect_part hsub hr, hconv, ?_, fun p => by change a.maxIter.later p = none; rw [hm]; rfl⟩
    rcases hph with hph | ⟨p1, p2, p3, p4, p5, p6, p7, p8, m', p9⟩
    · exact .inl hph
    · refine .inr ⟨p1, ?_, ?_, ?_⟩
      · change a.totalPhases = b'.totalPhases
        rw [hsh.phases]
        unfold Args.totalPhases
        rw [p2, p3, p4, p5, p6, p7, p8, p9, hm]
        rfl
      · funext p w
        unfold runEnv
        simp only [Args.phase, p2, p3, p4, p5, p6, p7, p8]
      · funext p
        change a.maxIter.later p = a'.maxIter.later p
        rw [hm, p9]; rfl
  have h1 : Level (PartOf cols b'.cols)
      { (Loop.init (0, b'.n, initState b'.config) m : Loop (Nat × Nat × State F) (List (MetricValue F))) with world := (runEnv a' b' solver t).resetIds (0, b'.n, initState b'.config) }
      { (Loop.init (0, b'.n, initState b'.config) b'.maxIter : Loop (Nat × Nat × State F) (List (MetricValue F))) with world := (runEnv a' b' solver t).resetIds (0, b'.n, initState b'.config) } :=
    ⟨rfl, rfl, rfl, rfl, rfl, rfl, .nil, rfl, rfl, hle _ hsh.maxIter, fun _ => rfl⟩
  obtain ⟨l, h2, h3⟩ := level_loop he fuel h1 h0 hl
  refine ⟨l, hb, hb', ok_bind hb h2, ?_, h3⟩
  intro hmet
  have := hsh.cols
  rw [← hmet, hc] at this
  exact Except.ok.inj this

theorem PartOf.eq {α : Type} {cols : List String} (hn : cols.Nodup) {r r' : List α} (h : PartOf cols cols r r') : r = r' := by
  obtain ⟨h1, h2, h3⟩ := h
  refine List.ext_getElem (h1.trans h2.symm) fun i hi hi' => ?_
  have hic : i < cols.length := h1 ▸ hi
  have hmem : (cols[i], r[i]) ∈ cols.zip r := by
    have : (cols.zip r)[i]'(by simp [hic, hi]) = (cols[i], r[i]) := by simp
    rw [← this]; exact List.getElem_mem _
  obtain ⟨j, hj, hj'⟩ := List.getElem_of_mem (h3 _ hmem)
  simp only [List.getElem_zip, Prod.mk.injEq] at hj'
  have : j = i := (List.Nodup.getElem_inj_iff hn).1 hj'.1
  subst this
  exact hj'.2.symm

theorem columns_nodup {M : List Nat} {cols : List String} (h : columns M = .ok cols) : cols.Nodup := by
  unfold columns at h
  obtain ⟨names, -, h⟩ := bind_ok h
  cases h
  exact nodup_eraseDups _

theorem rows_eq {cols cols' : List String} (hn : cols.Nodup) (h : cols = cols') {α : Type} {rows rows' : List (List α)} (hr : List.Forall₂ (PartOf cols cols') rows rows') : rows = rows' := by
  subst h
  induction hr with
  | nil => rfl
  | cons h1 _ ih => rw [h1.eq hn, ih]

abbrev Run (F : Type) := Loop (Nat × Nat × State F) (List (MetricValue F))

/-- two executions end in the same way: with the same agents, pools and rankings, after the same number of rounds and changes of phase, exporting the same verdict -/
structure SameEnd (l l' : Run F) : Prop where
  world : l.world = l'.world
  steps : l.steps = l'.steps
  phase : l.phase = l'.phase
  eqSteps : l.eqSteps = l'.eqSteps
  pivots : l.pivots = l'.pivots
  exports : l.exports = l'.exports
  running : l.running = l'.running

theorem sameEnd_of_level {obs : List (MetricValue F) → List (MetricValue F) → Prop} {l l' : Run F} (h : Level obs l l') : SameEnd l l' :=
  ⟨h.world, h.steps, h.phase, h.eqs, h.pivots, h.exports, h.running⟩

/-- C126.  More iterations: if an execution with `max_iterations = m'` ends without an exception, so does the one with `m ≤ m'` instead (same draws, any number of phases, any activation order, any kind of numbers), and its table of
metrics is the beginning of the other's table.  If it ended by convergence (there is one row per round and not one more), then the two end in the same way with the same table. -/
theorem C126_iterations [PyInt F] {a : Args F} {m m' : Int} (h0 : 0 ≤ m) (hle : m ≤ m') {d : Draws F} {solver : State F → F} {t : Turns} {fuel : Nat} {l' : Run F}
    (hl : simulate { a with maxIter := .one m' } d solver t fuel = .ok l') :
    ∃ l, simulate { a with maxIter := .one m } d solver t fuel = .ok l ∧ l.rows <+: l'.rows ∧ l.pivots <+: l'.pivots ∧ l.steps ≤ l'.steps ∧
      (l.rows.length ≠ l.steps + 1 → SameEnd l l' ∧ l.rows = l'.rows) := by
  obtain ⟨b, b', l, h1, h2, h3, h4, h5⟩ := shorter_run (a := { a with maxIter := .one m }) (a' := { a with maxIter := .one m' })
    ⟨rfl, rfl, rfl, rfl, rfl, rfl, rfl, rfl, rfl, rfl, rfl, rfl, rfl, rfl⟩ rfl h0 (fun x hx => by cases hx; exact hle) le_rfl (fun _ h => h)
    (.inr ⟨rfl, rfl, rfl, rfl, rfl, rfl, rfl, rfl, _, rfl⟩) hl
  have hn := columns_nodup (shape_of_construct h1).cols
  have hcols := h4 rfl
  refine ⟨l, h3, ?_⟩
  rcases h5 with h5 | ⟨-, h5⟩
  · have hr := rows_eq hn hcols h5.rows
    exact ⟨hr ▸ List.prefix_rfl, h5.pivots ▸ List.prefix_rfl, h5.steps.le, fun _ => ⟨sameEnd_of_level h5, hr⟩⟩
  · obtain ⟨rows, r1, r2⟩ := h5.rows
    have hr := rows_eq hn hcols r2
    refine ⟨hr ▸ r1, h5.pivots, h5.steps, fun hne => ?_⟩
    refine absurd (h5.why ⟨rfl, ?_, rfl, rfl⟩).1 hne
    change b.totalPhases = b'.totalPhases
    rw [(shape_of_construct h1).phases, (shape_of_construct h2).phases]
    rfl

/-- C126.  More patience: with one phase, the same holds for a larger value of `iterations_after_convergence`. -/
theorem C126_patience [PyInt F] {a : Args F} (hp : a.totalPhases = 1) {m : Int} (hm : a.maxIter = .one m) (h0 : 0 ≤ m) {c' : Int} (hle : a.conv ≤ c') {d : Draws F} {solver : State F → F} {t : Turns}
    {fuel : Nat} {l' : Run F} (hl : simulate { a with conv := c' } d solver t fuel = .ok l') :
    ∃ l, simulate a d solver t fuel = .ok l ∧ l.rows <+: l'.rows ∧ l.steps ≤ l'.steps := by
  obtain ⟨b, b', l, h1, h2, h3, h4, h5⟩ := shorter_run (a := a) (a' := { a with conv := c' })
    ⟨rfl, rfl, rfl, rfl, rfl, rfl, rfl, rfl, rfl, rfl, rfl, rfl, rfl, rfl⟩ hm h0 (fun x hx => by rw [hm] at hx; cases hx; exact le_rfl) hle (fun _ h => h) (.inl hp.le) hl
  have hn := columns_nodup (shape_of_construct h1).cols
  have hcols := h4 rfl
  refine ⟨l, h3, ?_⟩
  rcases h5 with h5 | ⟨-, h5⟩
  · have hr := rows_eq hn hcols h5.rows
    exact ⟨hr ▸ List.prefix_rfl, h5.steps.le⟩
  · obtain ⟨rows, r1, r2⟩ := h5.rows
    have hr := rows_eq hn hcols r2
    exact ⟨hr ▸ r1, h5.steps⟩

/-- only the first of several values -/
def onlyFirst {α : Type} : Multi α → Multi α
  | .many (x :: _) => .one x
  | m => m

/-- the arguments of the first phase -/
def firstPhase (a : Args F) : Args F :=
  { a with n := onlyFirst a.n, k := onlyFirst a.k, a0 := onlyFirst a.a0, relThr := onlyFirst a.relThr, absThr := onlyFirst a.absThr, maxIter := onlyFirst a.maxIter,
           extraFrac := onlyFirst a.extraFrac, order := onlyFirst a.order }

theorem onlyFirst_first {α : Type} (m : Multi α) : (onlyFirst m).first = m.first := by
  rcases m with x | (_ | ⟨x, l⟩) <;> rfl

theorem onlyFirst_phases {α : Type} (m : Multi α) : (onlyFirst m).phases ≤ 1 := by
  rcases m with x | (_ | ⟨x, l⟩) <;> simp [onlyFirst, Multi.phases]

/-- C126.  More phases: an execution with lists of values for several phases begins like the one with the first values only, whose table of metrics is the beginning of its table. -/
theorem C126_first_phase [PyInt F] {a : Args F} (h0 : ∀ m, a.maxIter.first = .ok m → 0 ≤ m) {d : Draws F} {solver : State F → F} {t : Turns} {fuel : Nat} {l' : Run F}
    (hl : simulate a d solver t fuel = .ok l') :
    ∃ l, simulate (firstPhase a) d solver t fuel = .ok l ∧ l.rows <+: l'.rows ∧ l.pivots <+: l'.pivots ∧ l.steps ≤ l'.steps := by
  obtain ⟨b₀, hb₀, -⟩ := bind_ok hl
  have hmax := (shape_of_construct hb₀).maxIter
  obtain ⟨m, hm, hm'⟩ : ∃ m, (firstPhase a).maxIter = .one m ∧ a.maxIter.first = .ok m := by
    change ∃ m, onlyFirst a.maxIter = .one m ∧ _
    rcases h : a.maxIter with x | (_ | ⟨x, l⟩)
    · exact ⟨x, rfl, rfl⟩
    · rw [h] at hmax; cases hmax
    · exact ⟨x, rfl, rfl⟩
  have hT : (firstPhase a).totalPhases ≤ 1 := by
    unfold Args.totalPhases
    simp only [firstPhase, max_le_iff, onlyFirst_phases, le_refl, and_self]
  obtain ⟨b, b', l, h1, h2, h3, h4, h5⟩ := shorter_run (a := firstPhase a) (a' := a)
    ⟨onlyFirst_first _, onlyFirst_first _, onlyFirst_first _, onlyFirst_first _, onlyFirst_first _, onlyFirst_first _, onlyFirst_first _, rfl, rfl, rfl, rfl, rfl, rfl, rfl⟩ hm (h0 m hm')
    (fun x hx => by rw [hm'] at hx; cases hx; exact le_rfl) le_rfl (fun _ h => h) (.inl hT) hl
  have hn := columns_nodup (shape_of_construct h1).cols
  have hcols := h4 rfl
  refine ⟨l, h3, ?_⟩
  rcases h5 with h5 | ⟨-, h5⟩
  · have hr := rows_eq hn hcols h5.rows
    exact ⟨hr ▸ List.prefix_rfl, h5.pivots ▸ List.prefix_rfl, h5.steps.le⟩
  · obtain ⟨rows, r1, r2⟩ := h5.rows
    have hr := rows_eq hn hcols r2
    exact ⟨hr ▸ r1, h5.pivots, h5.steps⟩

theorem simulate_max [PyInt F] {a : Args F} {m : Int} (hm : a.maxIter = .one m) {d : Draws F} {solver : State F → F} {t : Turns} {fuel : Nat} {l : Run F} (hl : simulate a d solver t fuel = .ok l) :
    l.maxIter = m := by
  obtain ⟨b, hb, hl⟩ := bind_ok hl
  have h1 := (shape_of_construct hb).maxIter
  rw [hm] at h1
  rw [loop_max (fun p => by change a.maxIter.later p = none; rw [hm]; rfl) fuel hl]
  exact (Except.ok.inj h1).symm

/-- C126.  More metrics: if an execution ends without an exception, so does the one that collects only some of its metrics; the two end in the same way, with as many rows of metrics, and what both collect is the same. -/
theorem C126_metrics [PyInt F] {a : Args F} {m : Int} (hm : a.maxIter = .one m) (h0 : 0 ≤ m) {M M' : List Nat} (hsub : ∀ i ∈ M, i ∈ M') {d : Draws F} {solver : State F → F} {t : Turns} {fuel : Nat}
    {l' : Run F} (hl : simulate { a with metrics := some M' } d solver t fuel = .ok l') :
    ∃ l cols cols', simulate { a with metrics := some M } d solver t fuel = .ok l ∧ SameEnd l l' ∧ columns M = .ok cols ∧ columns M' = .ok cols' ∧
      List.Forall₂ (PartOf cols cols') l.rows l'.rows := by
  obtain ⟨b, b', l, h1, h2, h3, h4, h5⟩ := shorter_run (a := { a with metrics := some M }) (a' := { a with metrics := some M' })
    ⟨rfl, rfl, rfl, rfl, rfl, rfl, rfl, rfl, rfl, rfl, rfl, rfl, rfl, rfl⟩ hm h0 (fun x hx => by rw [show _ = Multi.one m from hm] at hx; cases hx; exact le_rfl) le_rfl hsub
    (.inr ⟨rfl, rfl, rfl, rfl, rfl, rfl, rfl, rfl, m, hm⟩) hl
  have hT : b.totalPhases = b'.totalPhases := by rw [(shape_of_construct h1).phases, (shape_of_construct h2).phases]; rfl
  refine ⟨l, b.cols, b'.cols, h3, ?_⟩
  rcases h5 with h5 | ⟨-, h5⟩
  · exact ⟨sameEnd_of_level h5, (shape_of_construct h1).cols, (shape_of_construct h2).cols, h5.rows⟩
  · have := (h5.why ⟨rfl, hT, rfl, rfl⟩).2
    rw [simulate_max (a := { a with metrics := some M }) hm h3, simulate_max (a := { a with metrics := some M' }) hm hl] at this
    exact absurd this (lt_irrefl _)

/-! ### Examples -/

/-- three agents; two phases with k = 2 and k = 1 -/
def phasedArgs (m conv : Int) : Args ℚ := { twoArgs 0 conv with n := .one 3, k := .many [2, 1], a0 := .many [3/10, 1/10], maxIter := .one m, metrics := some [1, 2] }

/-- everything in the order in which it is given -/
def inTurn : Turns := ⟨fun _ l => l, fun _ l m => l.take m, fun _ _ _ l => l⟩

def isOk {α : Type} : Py α → Bool
  | .ok _ => true
  | .error _ => false

theorem of_isOk {α : Type} {x : Py α} (h : isOk x = true) : ∃ v, x = .ok v := by
  cases x with
  | error e => cases h
  | ok v => exact ⟨v, rfl⟩

theorem phased_ok : ∃ l, simulate (phasedArgs 8 2) twoDraws (fun _ => 0) inTurn 12 = .ok l := of_isOk (x := simulate (phasedArgs 8 2) twoDraws (fun _ => 0) inTurn 12) (by decide +kernel)

example : ∃ l l', simulate (phasedArgs 3 2) twoDraws (fun _ => 0) inTurn 12 = .ok l ∧ simulate (phasedArgs 8 2) twoDraws (fun _ => 0) inTurn 12 = .ok l' ∧ l.rows <+: l'.rows := by
  obtain ⟨l', h⟩ := phased_ok
  obtain ⟨l, h1, h2, -⟩ := C126_iterations (a := phasedArgs 8 2) (m := 3) (m' := 8) (by decide) (by decide) h
  exact ⟨l, l', h1, h, h2⟩

example : ∃ l l', simulate (firstPhase (phasedArgs 8 2)) twoDraws (fun _ => 0) inTurn 12 = .ok l ∧ simulate (phasedArgs 8 2) twoDraws (fun _ => 0) inTurn 12 = .ok l' ∧ l.rows <+: l'.rows := by
  obtain ⟨l', h⟩ := phased_ok
  obtain ⟨l, h1, h2, -⟩ := C126_first_phase (fun m hm => by cases hm; decide) h
  exact ⟨l, l', h1, h, h2⟩

example : ∃ l l', simulate { firstPhase (phasedArgs 8 2) with conv := 1 } twoDraws (fun _ => 0) inTurn 12 = .ok l ∧ simulate (firstPhase (phasedArgs 8 2)) twoDraws (fun _ => 0) inTurn 12 = .ok l' ∧
    l.rows <+: l'.rows := by
  obtain ⟨l', h⟩ := of_isOk (x := simulate (firstPhase (phasedArgs 8 2)) twoDraws (fun _ => 0) inTurn 12) (by decide +kernel)
  obtain ⟨l, h1, h2, -⟩ := C126_patience (a := { firstPhase (phasedArgs 8 2) with conv := 1 }) (c' := 2) rfl rfl (by decide) (by decide) h
  exact ⟨l, l', h1, h, h2⟩

example : ∃ l l', simulate { phasedArgs 8 2 with metrics := some [2] } twoDraws (fun _ => 0) inTurn 12 = .ok l ∧ simulate (phasedArgs 8 2) twoDraws (fun _ => 0) inTurn 12 = .ok l' ∧ SameEnd l l' := by
  obtain ⟨l', h⟩ := phased_ok
  obtain ⟨l, -, -, h1, h2, -⟩ := C126_metrics (a := phasedArgs 8 2) (M := [2]) (M' := [1, 2]) rfl (by decide) (by decide) h
  exact ⟨l, l', h1, h, h2⟩

/-- the converged clause of `C126_iterations` -/
example : (simulate { firstPhase (phasedArgs 8 2) with maxIter := .one 10 } twoDraws (fun _ => 0) inTurn 12).toOption.map (fun l => (l.steps, l.rows.length, l.exports)) = some (5, 5, [true]) := by decide +kernel

def numbersOf : MetricValue ℚ → List ℚ
  | .num x => [x]
  | .nums l => l
  | _ => []

/-- C126.  With several phases more patience is not just a longer execution: a phase begins later then, and the rows of metrics are different ones. -/
theorem C126_patience_phases : ∃ l l', simulate (phasedArgs 8 2) twoDraws (fun _ => 0) inTurn 12 = .ok l ∧ simulate (phasedArgs 8 3) twoDraws (fun _ => 0) inTurn 12 = .ok l' ∧ ¬ l.rows <+: l'.rows ∧
    l.rows.length = l'.rows.length := by
  obtain ⟨l, h⟩ := phased_ok
  obtain ⟨l', h'⟩ := of_isOk (x := simulate (phasedArgs 8 3) twoDraws (fun _ => 0) inTurn 12) (by decide +kernel)
  have e : (simulate (phasedArgs 8 2) twoDraws (fun _ => 0) inTurn 12).toOption.map (fun l => (l.rows.length, l.rows.map (fun r => r.map numbersOf))) =
      some (9, [[[], [0]], [[], [1]], [[], [1]], [[], [2/3]], [[], [2/3]], [[], [2/3]], [[], [1/3]], [[], [2/3]], [[], [1/3]]]) := by decide +kernel
  have e' : (simulate (phasedArgs 8 3) twoDraws (fun _ => 0) inTurn 12).toOption.map (fun l => (l.rows.length, l.rows.map (fun r => r.map numbersOf))) =
      some (9, [[[], [0]], [[], [1]], [[], [1]], [[], [2/3]], [[], [2/3]], [[], [2/3]], [[], [2/3]], [[], [1/3]], [[], [2/3]]]) := by decide +kernel
  rw [h] at e
  rw [h'] at e'
  simp only [Except.toOption, Option.map_some, Option.some.injEq, Prod.mk.injEq] at e e'
  refine ⟨l, l', h, h', fun hp => ?_, e.1.trans e'.1.symm⟩
  have := hp.map (fun r => r.map numbersOf)
  rw [e.2, e'.2] at this
  revert this
  decide +kernel

end RSE.Props
