import Verif.Props.IdleSimultaneous
import Verif.Props.IdleFloats
import Verif.Props.BatchMain

/-!
# C131: the aggregate row of a converged run, with simultaneous activation and on floats

The batch runner writes the metrics collected before the last round.  With sequential or random activation and exact numbers an idle round changes nothing, so that these are the
metrics of the final state (C37).  In the other cases a single idle round can change stakes (C128, C129), but two in a row end in a fixed point.
-/

set_option linter.unusedSectionVars false
set_option exponentiation.threshold 2000

namespace RSE.Props

variable {R : Type}

section
variable {W : Type}

/-- the row that the batch runner writes for a run that converged, and where it comes from -/
theorem converged_row {env : Env W R} (hm : ∀ p, env.newMax p = none) {w : W} {m : Int} (h0 : 0 < m) {fuel : Nat} {l : Loop W R} {data : List (Int × R)} {agg : List R}
    (hl : Loop.batchRun env m (-1) fuel (Loop.init w m) = .ok (l, data, agg)) (hend : (l.steps : Int) < m) :
    ∃ h w', History env w h w' ∧ (h.length : Int) ≤ m ∧ h.length = l.steps ∧ LastIdle env h env.conv ∧ l.pivots = pivotsOf h ∧ changes h = env.totalPhases - 1 ∧
      ∃ row w₀, agg = [row] ∧ h.getLast? = some ⟨w₀, l.world, false⟩ ∧ env.report w₀ = .ok row := by
  have hl' := hl
  unfold Loop.batchRun at hl
  obtain ⟨l₁, hl₁, hl⟩ := bind_ok hl
  rw [batchLoop_eq hm m fuel _ rfl] at hl₁
  obtain ⟨steps, hst, hl⟩ := bind_ok hl
  obtain ⟨data', hd, hl⟩ := bind_ok hl
  cases hl
  obtain ⟨row₀, k1, k2, k3⟩ := batchRun_of_loop env hm w h0 hl₁
  rw [hl'] at k3
  have hagg := congrArg (fun x => x.2.2) (Except.ok.inj k3)
  simp only at hagg
  obtain ⟨h, -, hmeq, hle, hh⟩ := (Track.init env w m).loop_max hm fuel (by simpa [Loop.init] using h0.le) hl₁
  rcases hh with hh | hh
  · have hlen : (h.length : Int) = m := by have := hh.max; rw [hmeq] at this; exact le_antisymm hle this
    have := hh.steps
    omega
  · obtain ⟨h₀, w₀, hpre, -, -, hch⟩ := hh.prefix'
    refine ⟨h, _, hh.hist, hle, hh.steps.symm, hh.last, hh.pivots, by rw [← hch, hpre]; simp [changes], row₀, w₀, hagg, by rw [hpre]; simp, ?_⟩
    have hf := hh.rows
    have hlen := hf.length_eq
    have hpos : 0 < h.length := by rw [hpre]; simp
    have h1 := hf.get (i := h.length - 1) (by omega) (by omega)
    rw [hh.steps, List.getElem?_eq_getElem (by omega)] at k1
    cases k1
    have h2 : h[h.length - 1]'(by omega) = ⟨w₀, l.world, false⟩ := by
      have : h[h.length - 1]? = some ⟨w₀, l.world, false⟩ := by rw [← List.getLast?_eq_getElem?, hpre]; simp
      rw [List.getElem?_eq_getElem (by omega)] at this
      exact Option.some.inj this
    have h3 : env.report (h[h.length - 1]'(by omega)).before = .ok (l.rows[h.length - 1]'(by omega)) := h1
    rw [h2] at h3
    exact h3

theorem pivots_far {h : List (Round W)} {l : Loop W R} (hp : l.pivots = pivotsOf h) (hs : h.length = l.steps) (hpiv : ∀ p ∈ l.pivots, p + 1 < l.steps) :
    ∀ n (hn : n < h.length), h.length ≤ n + 2 → (h[n]).phaseChange = false := by
  intro n hn hle
  by_contra hcon
  have hcon : (h[n]).phaseChange = true := by simpa using hcon
  have hmem : n + 1 ∈ pivotsOf h := by
    unfold pivotsOf
    refine List.mem_map.2 ⟨(h[n], n), List.mem_filter.2 ⟨?_, hcon⟩, rfl⟩
    exact List.mem_zipIdx_iff_getElem?.2 (List.getElem?_eq_getElem hn)
  have := hpiv (n + 1) (by rw [hp]; exact hmem)
  omega

end

section
variable {K : Type} [Field K] [LinearOrder K] [IsStrictOrderedRing K]

/-- C131.  Simultaneous or semi-simultaneous activation, exact arithmetic, any number of phases: if a run converges (with `iterations_after_convergence` at least 2, and after at least two
rounds in its last phase), the row that the batch runner writes for it holds the metrics of its final state. -/
theorem C131_simultaneous {c : Config K} (hc : c.simultaneous = true) (h0 : ∀ e ∈ c.people, 0 ≤ e.1) (hb : 0 ≤ c.rs.beta) {ord : List Nat → List Nat} (hord : ∀ l, (ord l).Perm l)
    {bs : Nat → List (List Nat)} (hf : ∀ i, FullRound c.people.length (bs i)) {report : State K → Py R} (hrep : Insensitive report) {conv : Int} (hconv : 2 ≤ conv) {totalPhases : Nat}
    {phases : Nat → PhaseParams K} {m : Int} (hm : 0 < m) {fuel : Nat} {l : Loop (State K) R} {data : List (Int × R)} {agg : List R}
    (hl : Loop.batchRun (batchEnv ord bs report conv totalPhases phases) m (-1) fuel (Loop.init (initState c) m) = .ok (l, data, agg)) (hend : (l.steps : Int) < m)
    (hpiv : ∀ p ∈ l.pivots, p + 1 < l.steps) : ∃ row, agg = [row] ∧ report l.world = .ok row := by
  obtain ⟨h, w', hh, -, hlen, ⟨g1, g2⟩, hp, -, row, w₀, ha, hlast, hrow⟩ := converged_row (fun _ => rfl) hm hl hend
  have hno := pivots_far hp hlen hpiv
  have hc2 : 2 ≤ h.length := by
    have : (2 : Int) ≤ h.length := hconv.trans g1
    omega
  obtain ⟨n, hn⟩ : ∃ n, h.length = n + 2 := ⟨h.length - 2, by omega⟩
  have i1 := g2 n (by omega) (by change _ - conv ≤ _; omega)
  have i2 := g2 (n + 1) (by omega) (by change _ - conv ≤ _; omega)
  have hr := history_rest hc h0 hb hord hf hh n (by omega) i1 i2 (hno n (by omega) (by omega)) (n + 1) le_rfl (by omega) (fun k hk ha hb => by omega)
  obtain ⟨-, -, k3, -, -⟩ := history_chain hh
  obtain ⟨hw, hbef⟩ := batch_history_reachable hord (fun i => (hf i).agents) hh
  have hl2 : h[n + 1]'(by omega) = ⟨w₀, l.world, false⟩ := by
    have : h[n + 1]? = some ⟨w₀, l.world, false⟩ := by rw [← hlast, List.getLast?_eq_getElem?, hn]; rfl
    rw [List.getElem?_eq_getElem (by omega)] at this
    exact Option.some.inj this
  have hw0 : w₀ = (h[n]'(by omega)).after := by
    have := k3 n (by omega) (hno n (by omega) (by omega))
    rw [hl2] at this
    exact this.trans (rearmed i1)
  have hsame : LooksSame w₀ l.world := by
    have := hr.2.2
    rw [hl2, ← hw0] at this
    exact this
  have hre : Reachable c w₀ := by
    have := hbef (h[n + 1]'(by omega)) (List.getElem_mem _)
    rw [hl2] at this
    exact this
  refine ⟨row, ha, ?_⟩
  rw [hrep _ _ (hre.good minUnit_pos).inv.core.poolsNodup hsame]
  exact hrow

end

/-- C131.  Sequential or random activation, binary64: if a run of one phase converges (with `iterations_after_convergence` at least 2), the row that the batch runner writes for it holds the
metrics of its final state. -/
theorem C131_floats {c : Config B64} (hc : c.simultaneous = false) {m : Nat} (hF : FloatsOK c m) {ord : List Nat → List Nat} (hord : ∀ l, (ord l).Perm l) {order : Nat → List Nat}
    (hperm : ∀ i, (order i).Perm (List.range c.people.length)) {report : State B64 → Py R} (hrep : Insensitive report) {conv : Int} (hconv : 2 ≤ conv)
    {phases : Nat → PhaseParams B64} {fuel : Nat} {l : Loop (State B64) R} {data : List (Int × R)} {agg : List R}
    (hl : Loop.batchRun (seqEnv ord order report conv 1 phases) m (-1) fuel (Loop.init (initState c) m) = .ok (l, data, agg)) (hend : (l.steps : Int) < m) :
    ∃ row, agg = [row] ∧ report l.world = .ok row := by
  obtain ⟨h, w', hh, hle, hlen, ⟨g1, g2⟩, -, hch, row, w₀, ha, hlast, hrow⟩ := converged_row (fun _ => rfl) (by omega) hl hend
  have hle' : h.length ≤ m := by omega
  have hno : ∀ n (hn : n < h.length), (h[n]).phaseChange = false := by
    intro n hn
    have h1 : changes h = 0 := hch
    unfold changes at h1
    simpa using List.countP_eq_zero.1 h1 _ (List.getElem_mem hn)
  have hc2 : 2 ≤ h.length := by
    have : (2 : Int) ≤ h.length := hconv.trans g1
    omega
  obtain ⟨n, hn⟩ : ∃ n, h.length = n + 2 := ⟨h.length - 2, by omega⟩
  have i1 := g2 n (by omega) (by change _ - conv ≤ _; omega)
  have i2 := g2 (n + 1) (by omega) (by change _ - conv ≤ _; omega)
  have hr := history_rest64 hc hF hord hperm hh hle' n (by omega) i1 i2 (n + 1) le_rfl (by omega) (fun k hk _ => hno k hk)
  obtain ⟨-, -, k3, -, -⟩ := history_chain hh
  obtain ⟨hw, hbef⟩ := history_reachable (c := c) (fun i a ha => by have := (hperm i).mem_iff.1 ha; simpa using this) (fun _ _ l => hord l) hh
  have hl2 : h[n + 1]'(by omega) = ⟨w₀, l.world, false⟩ := by
    have : h[n + 1]? = some ⟨w₀, l.world, false⟩ := by rw [← hlast, List.getLast?_eq_getElem?, hn]; rfl
    rw [List.getElem?_eq_getElem (by omega)] at this
    exact Option.some.inj this
  have hw0 : w₀ = (h[n]'(by omega)).after := by
    have := k3 n (by omega) (hno n (by omega))
    rw [hl2] at this
    exact this.trans (rearmed64 i1)
  have hsame : LooksSame w₀ l.world := by
    have := hr.2.2
    rw [hl2, ← hw0] at this
    exact this
  have hre : Reachable c w₀ := by
    have := hbef (h[n + 1]'(by omega)) (List.getElem_mem _)
    rw [hl2] at this
    exact this
  refine ⟨row, ha, ?_⟩
  rw [hrep _ _ (hre.good (RoundedArith.minUnit_pos (F := B64))).inv.core.poolsNodup hsame]
  exact hrow

/-- the total delegated stake as the only metric -/
def stakeReport (s : State ℚ) : Py ℚ := .ok (totalDelegatedStake s)

theorem stakeReport_insensitive : Insensitive stakeReport := fun s s' hn h => congrArg Except.ok (C37_metrics.2.2.1 s s' hn h)

/-- C131.  `iterations_after_convergence` must be at least 2, with simultaneous activation: with 1 (its least value accepted by the loop) a run of four agents converges after four rounds, and the
row written for it holds a total delegated stake that is not the one of its final state. -/
theorem C131_one_idle_round_simultaneous : ∃ l data row,
    Loop.batchRun (batchEnv id (fun _ => [[0, 1, 2, 3]]) stakeReport 1 1 (fun _ => {})) 20 (-1) 21 (Loop.init (initState repairCfg) 20) = .ok (l, data, [row]) ∧
    l.steps = 4 ∧ l.pivots = [] ∧ row ≠ totalDelegatedStake l.world := by
  have key : ((Loop.batchRun (batchEnv id (fun _ => [[0, 1, 2, 3]]) stakeReport 1 1 (fun _ => {})) 20 (-1) 21 (Loop.init (initState repairCfg) 20)).toOption.map
      (fun x => (x.1.steps, x.1.pivots, x.2.2.length, some (totalDelegatedStake x.1.world) == x.2.2.head?))) = some (4, [], 1, false) := by decide +kernel
  obtain ⟨⟨l, data, agg⟩, h1, h2⟩ := Option.map_eq_some_iff.1 key
  simp only [Prod.mk.injEq] at h2
  obtain ⟨e1, e2, e3, e4⟩ := h2
  obtain ⟨row, rfl⟩ := List.length_eq_one_iff.1 e3
  refine ⟨l, data, row, toOption_ok h1, e1, e2, fun hg => ?_⟩
  rw [hg] at e4
  simp at e4

/-- C131.  The same on binary64 with sequential activation: the simulation of `C129_idle_round_moves_stake`, with `iterations_after_convergence = 1`, converges after four rounds, and the row
written for it holds a Gini coefficient of the stake that is not the one of its final state. -/
theorem C131_one_idle_round_floats : ∃ b l data row, construct floatArgs floatDraws = .ok b ∧
    Loop.batchRun (seqEnv id (fun _ => List.range 4) giniStake 1 1 (fun _ => {})) 1000000 (-1) 20 (Loop.init (initState b.config) 1000000) = .ok (l, data, [row]) ∧
    l.steps = 4 ∧ l.pivots = [] ∧ giniStake l.world ≠ .ok row := by
  obtain ⟨b, hb, hlen, hF⟩ := floats_constructed
  have key : (match construct floatArgs floatDraws with
    | .ok b => (Loop.batchRun (seqEnv id (fun _ => List.range 4) giniStake 1 1 (fun _ => {})) 1000000 (-1) 20 (Loop.init (initState b.config) 1000000)).toOption.map
        (fun x => (x.1.steps, x.1.pivots, x.2.2.length, (giniStake x.1.world).toOption == x.2.2.head?))
    | .error _ => none) = some (4, [], 1, false) := by decide +kernel
  rw [hb] at key
  obtain ⟨⟨l, data, agg⟩, h1, h2⟩ := Option.map_eq_some_iff.1 key
  simp only [Prod.mk.injEq] at h2
  obtain ⟨e1, e2, e3, e4⟩ := h2
  obtain ⟨row, rfl⟩ := List.length_eq_one_iff.1 e3
  refine ⟨b, l, data, row, hb, toOption_ok h1, e1, e2, fun hg => ?_⟩
  rw [hg] at e4
  simp [Except.toOption] at e4

/-- the hypotheses of `C131_simultaneous` are met: with `iterations_after_convergence = 2` the same run takes nine rounds -/
example : ∃ l data agg,
    Loop.batchRun (batchEnv id (fun _ => [[0, 1, 2, 3]]) stakeReport 2 1 (fun _ => {})) 20 (-1) 21 (Loop.init (initState repairCfg) 20) = .ok (l, data, agg) ∧
    l.steps = 9 ∧ (∀ p ∈ l.pivots, p + 1 < l.steps) ∧ (∀ i : Nat, FullRound repairCfg.people.length ((fun _ => [[0, 1, 2, 3]]) i)) ∧ Insensitive stakeReport ∧
    repairCfg.simultaneous = true ∧ (∀ e ∈ repairCfg.people, 0 ≤ e.1) ∧ 0 ≤ repairCfg.rs.beta := by
  have key : ((Loop.batchRun (batchEnv id (fun _ => [[0, 1, 2, 3]]) stakeReport 2 1 (fun _ => {})) 20 (-1) 21 (Loop.init (initState repairCfg) 20)).toOption.map
      (fun x => (x.1.steps, x.1.pivots))) = some (9, []) := by decide +kernel
  obtain ⟨⟨l, data, agg⟩, h1, h2⟩ := Option.map_eq_some_iff.1 key
  simp only [Prod.mk.injEq] at h2
  exact ⟨l, data, agg, toOption_ok h1, h2.1, by rw [h2.2]; simp, fun i => FullRound.simultaneous (List.Perm.refl _), stakeReport_insensitive, rfl, by decide +kernel, by decide +kernel⟩

/-- the hypotheses of `C131_floats` are met: with `iterations_after_convergence = 2` the run of `C131_one_idle_round_floats` takes five rounds -/
example : ∃ b l data agg, construct floatArgs floatDraws = .ok b ∧ b.config.simultaneous = false ∧ FloatsOK b.config 1000000 ∧
    Loop.batchRun (seqEnv id (fun _ => List.range 4) giniStake 2 1 (fun _ => {})) (1000000 : Nat) (-1) 20 (Loop.init (initState b.config) (1000000 : Nat)) = .ok (l, data, agg) ∧
    l.steps = 5 ∧ (List.range 4).Perm (List.range b.config.people.length) := by
  obtain ⟨b, hb, hlen, hF⟩ := floats_constructed
  have key : (match construct floatArgs floatDraws with
    | .ok b => (Loop.batchRun (seqEnv id (fun _ => List.range 4) giniStake 2 1 (fun _ => {})) (1000000 : Nat) (-1) 20 (Loop.init (initState b.config) (1000000 : Nat))).toOption.map
        (fun x => (x.1.steps, b.config.simultaneous))
    | .error _ => none) = some (5, false) := by decide +kernel
  rw [hb] at key
  obtain ⟨⟨l, data, agg⟩, h1, h2⟩ := Option.map_eq_some_iff.1 key
  simp only [Prod.mk.injEq] at h2
  exact ⟨b, l, data, agg, hb, h2.2, hF, toOption_ok h1, h2.1, by rw [hlen]⟩

end RSE.Props
