import Verif.Props.SolePools
import Verif.Props.OrderlyRun
import Verif.Props.IdleSimultaneous

/-!
# C136: the same family of simulations with simultaneous activation

The simulations of C113 with simultaneous or semi-simultaneous activation.
-/

set_option linter.unusedSectionVars false

namespace RSE.Props

variable {K : Type} [Field K] [LinearOrder K] [IsStrictOrderedRing K]

/-- the same simulation with simultaneous activation -/
def together (c : Config K) : Config K := { c with simultaneous := true }

theorem SoleWorld.together {c : Config K} (h : SoleWorld c) : Sane (together c) := by
  exact ⟨rfl, h.k, h.beta, h.a0, h.stakes, fun h' => absurd h' h.scheme⟩

/-- A round with simultaneous or semi-simultaneous activation (activations.py:19-31): a list of batches, one with simultaneous activation.  In batch `i`, sets are
iterated in the order `ords i j` at the `j`-th call: those of `step` and then those of `advance`. -/
def roundInBatches (ords : Nat → Nat → List Nat → List Nat) (bs : List (List Nat)) (s : State K) : Py (State K) :=
  iterM (fun s (e : List Nat × Nat) => runBatch (ords e.2) s e.1) s bs.zipIdx

theorem roundInBatches_simultaneous (ords : Nat → List Nat → List Nat) (order : List Nat) (s : State K) :
    roundSimultaneous ords order s = roundInBatches (fun _ => ords) [order] s := by
  unfold roundInBatches
  simp only [List.zipIdx_cons, List.zipIdx_nil, iterM, bind]
  change runBatch ords s order = _
  cases runBatch ords s order <;> rfl

theorem roundInBatches_semi (z : Nat) (sample : List Nat → Nat → List Nat) (ords : Nat → Nat → List Nat → List Nat) (keys : List Nat) (s : State K) :
    roundSemi z sample ords keys s = roundInBatches ords (batches z sample keys.length keys) s := rfl

/-- a run with such rounds -/
abbrev batchesEnv {R : Type} (ords : Nat → Nat → Nat → List Nat → List Nat) (bs : Nat → List (List Nat)) (report : State K → Py R) (conv : Int) (totalPhases : Nat)
    (phases : Nat → PhaseParams K) : Env (State K) R := simEnv (fun i => roundInBatches (ords i) (bs i)) report conv totalPhases phases (fun _ => none)

/-- a state within a batch: nobody delegates or plans to, nobody operates or plans more than one pool, and only agents without pools have plans -/
structure Crew (c : Config K) (s : State K) : Prop where
  clean : Clean (together c) s
  batch : Batch (c.rs.k + 1) s
  solitary : Solitary s
  staged : ∀ b ag ν, s.agents.get? b = some ag → ag.newStrategy = some ν → ν.allocs = [] ∧ ν.owned.length = 1 ∧ ¬ Owns s b

theorem viable_of_profitable {c : Config K} (hb : 0 < c.rs.beta) {ag : Agent K} {n : Nat} (hn : 0 < n) (h : Profitable c.rs c.extraFrac ag n) :
    Viable c ag.stake ag.cost n := by
  have hn' : (0 : K) < (n : K) := by exact_mod_cast hn
  have hpos := h hn _ _ (by unfold pledgePerPool; rw [if_neg hn.ne']) (by unfold costPerPool; rw [if_neg hn.ne'])
  rw [potentialProfit_eq hb] at hpos
  unfold Viable
  rw [sub_pos, div_lt_iff₀ hn'] at hpos
  rw [mul_comm (n : K)]
  exact hpos

theorem SoleWorld.sole_of_profitable {c : Config K} (hw : SoleWorld c) {b : Nat} {ag : Agent K} (hper : c.people[b]? = some (ag.stake, ag.cost, ag.profile))
    (hab : ag.profile ≠ .abstainer) {n : Nat} (hn : 0 < n) (hk : n ≤ c.rs.k) (h : Profitable c.rs c.extraFrac ag n) :
    Sole c (ag.stake, ag.cost, ag.profile) :=
  (hw.people b _ hper).resolve_right (fun hno => hno ⟨_, hper, hab, n, hn, hk, viable_of_profitable hw.beta hn h⟩)

theorem Crew.good {c : Config K} {s : State K} (h : Crew c s) : Good (together c) s := (Reachable.of_single h.clean.single).good minUnit_pos

theorem Crew.person {c : Config K} {s : State K} (h : Crew c s) {b : Nat} {ag : Agent K} (ha : s.agents.get? b = some ag) :
    c.people[b]? = some (ag.stake, ag.cost, ag.profile) := h.good.person ha

theorem Crew.profitable {c : Config K} (hw : SoleWorld c) {s : State K} (h : Crew c s) {b : Nat} {ag : Agent K} (ha : s.agents.get? b = some ag) :
    AgentProfitable c.rs c.extraFrac ag := h.clean.profitable hw.stakes hw.beta hw.a0 b ag ha

theorem Crew.sole_of_owner {c : Config K} (hw : SoleWorld c) {s : State K} (h : Crew c s) {b : Nat} {ag : Agent K} {σ : Strategy K}
    (ha : s.agents.get? b = some ag) (hσ : ag.strategy = some σ) (hne : σ.owned ≠ []) : Sole c (ag.stake, ag.cost, ag.profile) := by
  have hg := h.good
  have hlen := List.length_pos_iff.2 hne
  refine hw.sole_of_profitable (h.person ha) (fun hab => ?_) hlen ?_ ((h.profitable hw ha).strategy σ hσ)
  · have := (hg.inv.abst _ ag ha hab).1
    rw [hσ] at this; cases this
  · obtain ⟨⟨pid, r⟩, he⟩ := List.exists_mem_of_ne_nil _ hne
    exact (C65_pools_of_an_operator_are_alike minUnit_pos h.clean.single ha hσ (Dict.get?_of_mem ((hg.inv.tidy b ag ha).owned _ hσ) he)).2.2.2

theorem Crew.pools {c : Config K} (hw : SoleWorld c) {s : State K} (hc : Crew c s) {pid : Nat} {r : Ref} (hp : s.pools.get? pid = some r) :
    (∃ e, c.people[(s.heap r).owner]? = some e ∧ Sole c e ∧ (s.heap r).cost = e.2.1) ∧ (s.heap r).pledge = c.rs.beta ∧ (s.heap r).stake = c.rs.beta ∧
      (s.heap r).isPrivate = true ∧ (s.heap r).delegators = [] := by
  have h := hc.clean.single
  have hr := Reachable.of_single h
  have hg := hc.good
  obtain ⟨ag, σ, ha, hσ, ho⟩ := hg.inv.owner hp
  have hne : σ.owned ≠ [] := by intro h; rw [h] at ho; cases ho
  have hS := hc.sole_of_owner hw ha hσ hne
  have hlen : σ.owned.length = 1 := le_antisymm (hc.solitary.strategy ha hσ).2 (List.length_pos_iff.2 hne)
  obtain ⟨e1, e2, -, -⟩ := C65_pools_of_an_operator_are_alike minUnit_pos h ha hσ ho
  have hone := hS.one
  simp only at hone
  have e1 : (s.heap r).pledge = min (ag.stake / (σ.owned.length : K)) c.rs.beta := e1
  rw [hlen, Nat.cast_one, div_one, min_eq_right hone] at e1
  have hpr : (s.heap r).isPrivate = true := by
    rw [C24_private_iff_pledge_saturates minUnit_pos h hp]
    change (c.rs.sat _ ≤ _)
    rw [sat_of_ne hw.scheme, e1]
  have hdel : (s.heap r).delegators = [] := dict_nil (fun b => by rw [hc.batch.books.agree pid r hp b]; exact hc.solitary.allocs b pid)
  have hst : (s.heap r).stake = (s.heap r).pledge := by
    have := (hr.balanced r).stake
    rw [hdel] at this
    simpa [Dict.total] using this
  refine ⟨⟨_, hc.person ha, hS, ?_⟩, e1, hst.trans e1, hpr, hdel⟩
  rw [hlen] at e2
  unfold costPerPool at e2
  simp at e2
  exact e2.symm

theorem Crew.placed_nil {c : Config K} (hw : SoleWorld c) {s : State K} (hc : Crew c s) {rs : RS K} {me : Agent K}
    {before : Dict K} {stake : K} {d : Dict K} (hd : PlacedAll rs (openPools s) me before stake d) : d = [] := by
  refine dict_nil (fun pid => ?_)
  rw [hd.2, openPools_get?]
  cases hp : s.pools.get? pid with
  | none => rfl
  | some r =>
    have := (hc.pools hw hp).2.2.2.1
    simp [placed, this]

theorem Crew.inRecords {c : Config K} {s : State K} (hc : Crew c s) {a : Nat} {ag : Agent K} {σ : Strategy K} (ha : s.agents.get? a = some ag)
    (hσ : ag.strategy = some σ) : InRecords s a σ := by
  intro pid x
  rw [(hc.solitary.strategy ha hσ).1]
  constructor
  · rintro ⟨r, hr, hx⟩
    rw [hc.batch.books.agree pid r hr a, hc.solitary.allocs a pid] at hx
    cases hx
  · intro h; cases h

/-- what an agent decides in such a state -/
theorem Crew.plan {c : Config K} (hw : SoleWorld c) {s s' : State K} (hc : Crew c s) {a : Nat} {ag : Agent K}
    {σ : Strategy K} (ha : s.agents.get? a = some ag) (hσ : ag.strategy = some σ) {ord : List Nat → List Nat} (hord : ∀ l, (ord l).Perm l)
    {oν : Option (Strategy K)} (hp : planMove ord s ag σ = .ok (s', oν)) :
    (Sole c (ag.stake, ag.cost, ag.profile) → σ.owned = [] → ∃ ν, oν = some ν ∧ ν.owned.length = 1 ∧ ν.allocs = []) ∧
    (Sole c (ag.stake, ag.cost, ag.profile) → σ.owned ≠ [] → oν = none) ∧
    (∀ ν, σ.owned = [] → oν = some ν → ν.owned ≠ [] ∧ ν.owned.length ≤ c.rs.k) := by
  have h := hc.clean.single
  have hq := hc.solitary
  have hr := Reachable.of_single h
  have hg := hr.good minUnit_pos
  have hpar := h.params minUnit_pos
  have hrs : s.rs = c.rs := hpar.rs
  have hfr : s.extraFrac = c.extraFrac := hpar.extraFrac
  have hrt : s.relThr = c.relThr := hpar.relThr
  have hat : s.absThr = c.absThr := hpar.absThr
  have hin := hc.inRecords ha hσ
  obtain ⟨s₁, δ, ω, ou, f1, f2, f3, f4, f5⟩ := C94_plan hr ha hσ (.inr hin) hord hp
  obtain ⟨s₁', δ', ω', ou', f1', f2', hn1, hnk, ⟨u, hpl, hmax⟩, hdr⟩ := C93_plan hr ha hσ (.inr hin) hord hp
  obtain ⟨s₁'', δ'', ω'', f1'', -, ⟨ou'', f2''⟩, hωne, d1, d2, d3⟩ := C90_plan hr ha hσ (.inr hin) hord hp
  rw [f1] at f1' f1''
  cases f1'; cases f1''
  rw [f2] at f2' f2''
  cases f2'; cases f2''
  have hδ := hc.placed_nil hw f4
  have hω := hc.placed_nil hw f5
  obtain ⟨hσa, hσl⟩ := hq.strategy ha hσ
  rw [hrs, hrt, hat, hδ, hω, hσa] at d1 d2 d3
  simp only [expectation, List.map_nil, List.sum_nil, add_zero] at d1 d2 d3
  simp only [income, hσa, List.map_nil, List.sum_nil, add_zero] at d1 d2 d3
  have hrel := hw.rel
  have habs := hw.abs
  -- one pool, saturated by its pledge
  have hop : Sole c (ag.stake, ag.cost, ag.profile) → ω.owned.length = 1 ∧
      ∀ total others mine, (ω.owned.map (fun e => s'.heap e.2)).map (operating c.rs total ag.profile others mine) = [c.rs.beta - ag.cost] := by
    intro hS
    rw [hrs, hfr] at hpl hmax hdr
    have hnk : ω.owned.length ≤ c.rs.k := by rw [← hrs]; exact hnk
    have hn := plans_one hw hS hn1 hnk hpl hmax
    refine ⟨hn, fun total others mine => ?_⟩
    cases hl : ω.owned with
    | nil => exact absurd hl hωne
    | cons e t =>
      rw [hl] at hn
      cases t with
      | cons _ _ => simp at hn
      | nil =>
        rw [hl] at hdr
        have hde := hdr e.1 e.2 (by simp [Dict.get?])
        have hone := hS.one
        simp only at hone
        have hpl : (s'.heap e.2).pledge = c.rs.beta := by
          rw [hde.pledge]; simp [min_eq_right hone]
        have hco : (s'.heap e.2).cost = ag.cost := by rw [hde.cost]; simp
        have hst : (s'.heap e.2).stake = c.rs.beta := by
          rw [hde.stake, hpl]
          cases ho : σ.owned.get? e.1 with
          | none => simp
          | some r =>
            obtain ⟨-, k1, k2, -⟩ := hc.pools hw (hg.inv.owned ha hσ ho).1
            simp [k1, k2]
        have hprof := hS.profile
        simp only at hprof
        simp only [List.map_cons, List.map_nil]
        rw [hprof, operating_own hw hpl hst, hco]
  refine ⟨fun hS hno => ?_, fun hS hyes => ?_, fun ν hno hν => ?_⟩
  · obtain ⟨hn, hsum⟩ := hop hS
    rw [hsum, hno] at d3
    simp only [List.map_nil, List.sum_nil, List.sum_cons, add_zero] at d3
    have hpays := hS.pays
    simp only at hpays
    have := d3 ⟨by linarith, by linarith, by linarith, by linarith⟩ (by linarith)
    exact ⟨ω, this, hn, hω⟩
  · obtain ⟨hn, hsum⟩ := hop hS
    have hpays := hS.pays
    have hprof := hS.profile
    simp only at hpays hprof
    cases hl : σ.owned with
    | nil => exact absurd hl hyes
    | cons e t =>
      rw [hl] at hσl
      cases t with
      | cons _ _ => simp at hσl
      | nil =>
        have ho : σ.owned.get? e.1 = some e.2 := by rw [hl]; simp [Dict.get?]
        obtain ⟨k0, k5⟩ := hg.inv.owned ha hσ ho
        obtain ⟨⟨e', k6, -, k7⟩, k1, k2, -⟩ := hc.pools hw k0
        rw [k5, hc.person ha] at k6
        cases k6
        simp only at k7
        refine d1.2 ?_
        rw [hsum, hl]
        simp only [List.map_cons, List.map_nil, List.sum_cons, List.sum_nil, add_zero]
        rw [hprof, operating_own hw k1 k2, k7]
        exact ⟨fun hb => by have := hb.2.2.2; linarith, fun hb => by have := hb.2.2.2; linarith⟩
  · rw [hno] at d1 d2 d3
    simp only [List.map_nil, List.sum_nil] at d1 d2 d3
    have hnd : ¬ Beats c.relThr c.absThr (0 : K) 0 0 := fun hb => by have := hb.2.1; linarith
    have hnn : oν ≠ none := by rw [hν]; simp
    by_cases hb : Beats c.relThr c.absThr (0 : K) 0 ((ω.owned.map (fun e => s'.heap e.2)).map
        (operating c.rs s.totalStake ag.profile ((openPools s).vals.filter (fun p => decide (p.owner ≠ ag.id))) (ω.owned.map (fun e => s'.heap e.2)))).sum
    · have := d3 hb (by have := hb.2.1; linarith)
      rw [hν] at this
      cases this
      exact ⟨hωne, by rw [← hrs]; exact hnk⟩
    · exact absurd (d1.2 ⟨hnd, hb⟩) hnn

/-! ### Planning -/

/-- the agent has a plan that it has not carried out -/
def Waits (s : State K) (b : Nat) : Prop := ∃ ag ν, s.agents.get? b = some ag ∧ ag.newStrategy = some ν

/-- agent `b` would operate exactly one pool -/
def SoleAgent (c : Config K) (b : Nat) : Prop := ∃ e, c.people[b]? = some e ∧ Sole c e

theorem owns_iff {s s' : State K} {b : Nat} (h : ownListOf s' b = ownListOf s b) : Owns s' b ↔ Owns s b := by unfold Owns; rw [h]

/-- an agent plans -/
theorem Crew.step {c : Config K} (hw : SoleWorld c) {s : State K} (h : Crew c s) {me : Nat} (hme : me < c.people.length) {ord : List Nat → List Nat}
    (hord : ∀ l, (ord l).Perm l) :
    ∃ s', exec s (.step me ord) = .ok s' ∧ Crew c s' ∧ (∀ b, ownListOf s' b = ownListOf s b) ∧ s'.idle = s.idle ∧ s'.pools = s.pools ∧
      (∀ b, b ≠ me → s'.agents.get? b = s.agents.get? b) ∧ (Waits s' me ↔ SoleAgent c me ∧ ¬ Owns s me) := by
  have hg := h.good
  obtain ⟨ag, ha⟩ : ∃ ag, s.agents.get? me = some ag := by
    have : (s.agents.get? me).isSome := by rw [hg.fixed.isSome]; exact isSome_init (together c) hme
    exact Option.isSome_iff_exists.1 this
  have hv : (Event.step me ord : Event K).Valid (together c).people.length := ⟨hme, hord⟩
  obtain ⟨s', he⟩ : ∃ s', exec s (.step me ord) = .ok s' := by
    obtain ⟨s', k1, -⟩ := Clean.plansOf hw.together (ords := fun _ => ord) (fun _ => hord) [me] 0 s
      (fun a ha => by rw [List.mem_singleton.1 ha]; exact hme) h.clean h.batch
    simp only [List.zipIdx_cons, List.zipIdx_nil, iterM] at k1
    obtain ⟨s₁, k2, -⟩ := bind_ok k1
    exact ⟨s₁, k2⟩
  have hcl : Clean (together c) s' := h.clean.next hv (fun p => by simp) (fun _ _ _ => h.batch.books) he
  have hB := ((h.batch.step hord ha).of_ok he).1
  have hid := hg.inv.core.agentId me ag ha
  have hd := hg.exec minUnit_pos hv
  rw [he] at hd
  obtain ⟨hd, -⟩ := hd
  refine ⟨s', he, ?_⟩
  cases hd with
  | idle _ _ ag' ha' hprof =>
    rw [ha] at ha'; cases ha'
    refine ⟨h, fun _ => rfl, rfl, rfl, fun _ _ => rfl, ?_, ?_⟩
    · rintro ⟨ag', ν, k1, k2⟩
      rw [ha] at k1; cases k1
      rw [(hg.inv.abst _ ag ha hprof).2] at k2; cases k2
    · rintro ⟨⟨e, k1, k2⟩, -⟩
      rw [h.person ha] at k1; cases k1
      have := k2.profile
      simp only at this
      rw [hprof] at this; cases this
  | plan _ _ ag' σ oν s₁ _ ha' hprof hσ hpm hpl hsim ht =>
    rw [ha] at ha'; cases ha'
    obtain ⟨p1, p2, p3⟩ := h.plan hw ha hσ hord hpm
    have hget : ∀ b, s'.agents.get? b = if b = me then some { ag with newStrategy := oν } else s.agents.get? b := by
      intro b
      rw [hpl.eq, get?_setAgent (me := me) (ag := { ag with newStrategy := oν }) hid b, hpl.planned.agents]
    have hal : ∀ b pid, allocOf s' b pid = allocOf s b pid := by
      intro b p; rw [hpl.eq]; exact allocOf_setAgent ha hid hpl.planned.agents oν b p
    have how : ∀ b, ownListOf s' b = ownListOf s b := by
      intro b
      unfold ownListOf
      rw [hget]
      by_cases hb : b = me
      · subst hb; simp [ha, Agent.skel]
      · simp [hb]
    have hown : Owns s me ↔ σ.owned ≠ [] := by
      unfold Owns
      rw [ownListOf_eq ha hσ]
      simp
    have hne : ∀ ν, oν = some ν → σ.owned = [] := by
      intro ν hν
      by_contra hno
      rw [p2 (h.sole_of_owner hw ha hσ hno) hno] at hν
      cases hν
    have hsole : ∀ ν, oν = some ν → Sole c (ag.stake, ag.cost, ag.profile) := by
      intro ν hν
      obtain ⟨q1, q2⟩ := p3 ν (hne ν hν) hν
      have := (hcl.profitable hw.stakes hw.beta hw.a0 me { ag with newStrategy := oν } (by rw [hget, if_pos rfl])).staged ν hν
      exact hw.sole_of_profitable (h.person ha) hprof (List.length_pos_iff.2 q1) q2 (this.congr rfl rfl rfl)
    refine ⟨⟨hcl, hB.1, ⟨fun b pid => by rw [hal]; exact h.solitary.allocs b pid, fun b d hd => h.solitary.few b d (by rw [← how]; exact hd)⟩, ?_⟩, how,
      by rw [hpl.eq]; exact hpl.planned.idle, by rw [hpl.eq]; exact hpl.planned.pools, fun b hb => by rw [hget, if_neg hb], ?_⟩
    · intro b agb ν k1 k2
      rw [owns_iff (how b)]
      rw [hget] at k1
      by_cases hb : b = me
      · rw [if_pos hb] at k1
        cases k1
        have k2 : oν = some ν := k2
        obtain ⟨ν', q1, q2, q3⟩ := p1 (hsole ν k2) (hne ν k2)
        rw [k2] at q1; cases q1
        refine ⟨q3, q2, ?_⟩
        rw [hb, hown]
        exact fun hn => hn (hne ν k2)
      · rw [if_neg hb] at k1
        exact h.staged b agb ν k1 k2
    · constructor
      · rintro ⟨agb, ν, k1, k2⟩
        rw [hget, if_pos rfl] at k1
        cases k1
        have k2 : oν = some ν := k2
        exact ⟨⟨_, h.person ha, hsole ν k2⟩, by rw [hown]; exact fun hn => hn (hne ν k2)⟩
      · rintro ⟨⟨e, k1, k2⟩, k3⟩
        rw [h.person ha] at k1; cases k1
        obtain ⟨ν, q1, -⟩ := p1 k2 (by by_contra hno; exact k3 (hown.2 hno))
        exact ⟨{ ag with newStrategy := oν }, ν, by rw [hget, if_pos rfl], q1⟩
  | move _ _ ag' σ ν s₁ s₂ s₃ ha' hprof hσ hpm hpl hsim =>
    have := h.batch.sim
    rw [hsim] at this; cases this

/-- agents plan -/
theorem Crew.steps {c : Config K} (hw : SoleWorld c) {ords : Nat → List Nat → List Nat} (hords : ∀ i l, (ords i l).Perm l) (l : List (Nat × Nat)) :
    ∀ {s : State K}, Crew c s → (∀ e ∈ l, e.1 < c.people.length) →
    ∃ s', iterM (fun s (e : Nat × Nat) => agentStep (ords e.2) s e.1) s l = .ok s' ∧ Crew c s' ∧ (∀ b, ownListOf s' b = ownListOf s b) ∧ s'.idle = s.idle ∧
      s'.pools = s.pools ∧ ∀ b, Waits s' b ↔ if b ∈ l.map Prod.fst then SoleAgent c b ∧ ¬ Owns s b else Waits s b := by
  induction l with
  | nil => intro s h _; exact ⟨s, rfl, h, fun _ => rfl, rfl, rfl, fun b => by simp⟩
  | cons a l ih =>
    intro s h hl
    obtain ⟨s₁, e1, h1, o1, i1, p1, w1, w2⟩ := h.step hw (hl a (by simp)) (hords a.2)
    obtain ⟨s', e2, h2, o2, i2, p2, w3⟩ := ih h1 (fun b hb => hl b (List.mem_cons_of_mem _ hb))
    refine ⟨s', ?_, h2, fun b => (o2 b).trans (o1 b), i2.trans i1, p2.trans p1, fun b => ?_⟩
    · change exec s (.step a.1 (ords a.2)) >>= _ = _
      rw [e1]; exact e2
    · rw [w3, owns_iff (o1 b)]
      by_cases hb : b ∈ l.map Prod.fst
      · simp [hb]
      · by_cases hba : b = a.1
        · subst hba; simp only [List.map_cons, List.mem_cons, true_or, if_true, hb, if_false, w2]
        · simp only [hb, hba, List.map_cons, List.mem_cons, or_self, if_false]
          unfold Waits
          rw [w1 b hba]

/-! ### Moving -/

/-- an agent carries out its plan -/
theorem Crew.advance {c : Config K} {s : State K} (h : Crew c s) {me : Nat} (hme : me < c.people.length) {ord : List Nat → List Nat}
    (hord : ∀ l, (ord l).Perm l) :
    ∃ s', exec s (.advance me ord) = .ok s' ∧ Crew c s' ∧ (∀ b, Waits s' b ↔ Waits s b ∧ b ≠ me) ∧ (∀ b, Owns s' b ↔ Owns s b ∨ (b = me ∧ Waits s b)) ∧
      (Waits s me → s'.idle = false) ∧ (¬ Waits s me → s' = s) := by
  have hg := h.good
  obtain ⟨ag, ha⟩ : ∃ ag, s.agents.get? me = some ag := by
    have : (s.agents.get? me).isSome := by rw [hg.fixed.isSome]; exact isSome_init (together c) hme
    exact Option.isSome_iff_exists.1 this
  have hv : (Event.advance me ord : Event K).Valid (together c).people.length := ⟨hme, hord⟩
  have hnil : ∀ ag ν, s.agents.get? me = some ag → ag.newStrategy = some ν → ∀ pid, newOf s me pid = none := by
    intro ag ν k1 k2 pid
    rw [newOf_eq k1 k2, (h.staged me ag ν k1 k2).1]; rfl
  obtain ⟨s', he, hB, -⟩ := h.batch.advance minUnit_pos hord ha (fun b _ _ _ _ _ ag ν k1 k2 pid _ _ => by
    rw [hnil ag ν k1 k2, h.solitary.allocs])
  have he : exec s (.advance me ord) = .ok s' := he
  have hcl : Clean (together c) s' := h.clean.next hv (fun p => by simp) (fun _ _ hh => by cases hh) he
  have hd := hg.exec minUnit_pos hv
  rw [he] at hd
  obtain ⟨hd, -⟩ := hd
  refine ⟨s', he, ?_⟩
  cases hd with
  | skip _ _ ag' ha' hn =>
    have hno : ¬ Waits s me := by
      rintro ⟨agb, ν, k1, k2⟩
      rw [ha'] at k1; cases k1
      rw [hn] at k2; cases k2
    refine ⟨h, fun b => ⟨fun hb => ⟨hb, fun e => hno (e ▸ hb)⟩, fun hb => hb.1⟩, fun b => ⟨.inl, ?_⟩, fun hb => absurd hb hno, fun _ => rfl⟩
    rintro (hb | ⟨rfl, hb⟩)
    · exact hb
    · exact absurd hb hno
  | adv _ _ ag' σ ν s₃ ha' hσ hν hex hdx hinv ht =>
    rw [ha] at ha'; cases ha'
    have hbk := executeStrategy_books minUnit_pos hg.inv hord ha hσ hν (t := True) (fun _ => h.batch.books) (fun _ => h.batch.staged me ag σ ν ha hσ hν)
    rw [hex] at hbk
    have hbk := hbk.2 trivial
    obtain ⟨n1, n2, n3⟩ := h.staged me ag ν ha hν
    have hw : Waits s me := ⟨ag, ν, ha, hν⟩
    have hmine : ownListOf s₃ me = some ν.owned := by
      unfold ownListOf
      rw [hdx.mine, ha]; rfl
    have hoth : ∀ b, b ≠ me → ownListOf s₃ b = ownListOf s b := by
      intro b hb
      unfold ownListOf
      rw [hdx.others b hb]
    have hal : ∀ b pid, allocOf s₃ b pid = none := by
      intro b pid
      by_cases hb : b = me
      · rw [hb, hbk.mine, n1]; rfl
      · by_cases hgone : Gone s σ ν pid
        · exact hbk.gone b hb pid hgone
        · rw [hbk.kept b hb pid hgone]; exact h.solitary.allocs b pid
    have hmine' : ¬ Waits s₃ me := by
      rintro ⟨agb, νb, k1, k2⟩
      have := hdx.mine
      rw [k1, ha] at this
      simp only [Option.map_some, Option.some.injEq, Agent.skel, Prod.mk.injEq] at this
      have := this.2.2.2.2.2
      rw [k2] at this; cases this
    have hback : ∀ b, b ≠ me → ∀ agb νb, s₃.agents.get? b = some agb → agb.newStrategy = some νb →
        ∃ ag₀ ν₀, s.agents.get? b = some ag₀ ∧ ag₀.newStrategy = some ν₀ ∧ ν₀.owned = νb.owned := by
      intro b hb agb νb k1 k2
      obtain ⟨ag₀, q1, q2⟩ := get?_of_skel (hdx.others b hb) k1
      simp only [Agent.skel, Prod.mk.injEq] at q2
      have := q2.2.2.2.2.2
      rw [k2] at this
      obtain ⟨ν₀, q3, q4⟩ := Option.map_eq_some_iff.1 this.symm
      exact ⟨ag₀, ν₀, q1, q3, q4⟩
    have hforth : ∀ b, b ≠ me → Waits s b → Waits s₃ b := by
      rintro b hb ⟨ag₀, ν₀, k1, k2⟩
      obtain ⟨agb, q1, q2⟩ := get?_of_skel (hdx.others b hb).symm k1
      simp only [Agent.skel, Prod.mk.injEq] at q2
      have := q2.2.2.2.2.2
      rw [k2] at this
      obtain ⟨νb, q3, -⟩ := Option.map_eq_some_iff.1 this.symm
      exact ⟨agb, νb, q1, q3⟩
    have howns : ∀ b, Owns s₃ b ↔ Owns s b ∨ (b = me ∧ Waits s b) := by
      intro b
      by_cases hb : b = me
      · subst hb
        refine ⟨fun _ => .inr ⟨rfl, hw⟩, fun _ => ⟨_, hmine, fun hn => ?_⟩⟩
        rw [hn] at n2; cases n2
      · rw [owns_iff (hoth b hb)]
        simp [hb]
    refine ⟨⟨hcl, hB, ⟨hal, fun b d hd => ?_⟩, fun b agb νb k1 k2 => ?_⟩, fun b => ⟨?_, ?_⟩, howns, fun _ => rfl, fun hn => absurd hw hn⟩
    · have hd : ownListOf s₃ b = some d := hd
      by_cases hb : b = me
      · rw [hb, hmine] at hd; cases hd; exact n2.le
      · rw [hoth b hb] at hd; exact h.solitary.few b d hd
    · have k1 : s₃.agents.get? b = some agb := k1
      have hb : b ≠ me := fun hb => hmine' ⟨agb, νb, hb ▸ k1, k2⟩
      obtain ⟨ag₀, ν₀, q1, q2, q3⟩ := hback b hb agb νb k1 k2
      obtain ⟨-, m2, m3⟩ := h.staged b ag₀ ν₀ q1 q2
      refine ⟨dict_nil (fun pid => ?_), by rw [← q3]; exact m2, ?_⟩
      · rw [← newOf_eq k1 k2]
        have hkeep : newOf s b pid = none := by rw [newOf_eq q1 q2, (h.staged b ag₀ ν₀ q1 q2).1]; rfl
        by_cases hgone : Gone s σ ν pid
        · exact hbk.stagedGone b hb pid hgone h.batch.sim
        · rw [hbk.stagedKept b hb pid (.inl hgone), hkeep]
      · change ¬ Owns s₃ b
        rw [owns_iff (hoth b hb)]; exact m3
    · rintro ⟨agb, νb, k1, k2⟩
      have k1 : s₃.agents.get? b = some agb := k1
      have hb : b ≠ me := fun hb => hmine' ⟨agb, νb, hb ▸ k1, k2⟩
      obtain ⟨ag₀, ν₀, q1, q2, -⟩ := hback b hb agb νb k1 k2
      exact ⟨⟨ag₀, ν₀, q1, q2⟩, hb⟩
    · rintro ⟨k1, hb⟩
      exact hforth b hb k1

/-- agents carry out their plans -/
theorem Crew.advances {c : Config K} {ords : Nat → List Nat → List Nat} (hords : ∀ i l, (ords i l).Perm l) (l : List (Nat × Nat)) :
    ∀ {s : State K}, Crew c s → (∀ e ∈ l, e.1 < c.people.length) →
    ∃ s', iterM (fun s (e : Nat × Nat) => RSE.advance (ords e.2) s e.1) s l = .ok s' ∧ Crew c s' ∧ (∀ b, Waits s' b ↔ Waits s b ∧ b ∉ l.map Prod.fst) ∧
      (∀ b, Owns s' b ↔ Owns s b ∨ (b ∈ l.map Prod.fst ∧ Waits s b)) ∧ (s.idle = false → s'.idle = false) ∧ ((∃ b ∈ l.map Prod.fst, Waits s b) → s'.idle = false) ∧
      ((∀ b ∈ l.map Prod.fst, ¬ Waits s b) → s' = s) := by
  induction l with
  | nil => intro s h _; exact ⟨s, rfl, h, fun b => by simp, fun b => by simp, fun h => h, fun ⟨b, hb, _⟩ => by simp at hb, fun _ => rfl⟩
  | cons a l ih =>
    intro s h hl
    obtain ⟨s₁, e1, h1, w1, o1, i1, r1⟩ := h.advance (hl a (by simp)) (hords a.2)
    obtain ⟨s', e2, h2, w2, o2, i2, i3, r2⟩ := ih h1 (fun b hb => hl b (List.mem_cons_of_mem _ hb))
    refine ⟨s', ?_, h2, fun b => ?_, fun b => ?_, fun hi => ?_, ?_, fun hno => ?_⟩
    · change exec s (.advance a.1 (ords a.2)) >>= _ = _
      rw [e1]; exact e2
    · rw [w2, w1, List.map_cons, List.mem_cons, not_or, and_assoc]
    · rw [o2, o1, w1, List.map_cons, List.mem_cons]
      by_cases hb : b = a.1
      · simp [hb]
      · simp [hb]
    · by_cases hwa : Waits s a.1
      · exact i2 (i1 hwa)
      · refine i2 ?_
        rw [r1 hwa]; exact hi
    · rintro ⟨b, hb, hwb⟩
      by_cases hwa : Waits s a.1
      · exact i2 (i1 hwa)
      · rw [List.map_cons] at hb
        rcases List.mem_cons.1 hb with rfl | hb
        · exact absurd hwb hwa
        · exact i3 ⟨b, hb, by rw [r1 hwa]; exact hwb⟩
    · have e := r1 (hno a.1 (by simp))
      rw [r2 (fun b hb => by rw [e]; exact hno b (by rw [List.map_cons]; exact List.mem_cons_of_mem _ hb)), e]

/-! ### Batches and rounds -/

/-- a batch -/
theorem Crew.runBatch {c : Config K} (hw : SoleWorld c) {ords : Nat → List Nat → List Nat} (hords : ∀ i l, (ords i l).Perm l) {l : List Nat}
    (hl : ∀ a ∈ l, a < c.people.length) {s : State K} (h : Crew c s) (hn : ∀ b, ¬ Waits s b) :
    ∃ s', RSE.runBatch ords s l = .ok s' ∧ Crew c s' ∧ (∀ b, ¬ Waits s' b) ∧ (∀ b, Owns s' b ↔ Owns s b ∨ (b ∈ l ∧ SoleAgent c b)) ∧
      (s.idle = false → s'.idle = false) ∧ ((∃ b ∈ l, SoleAgent c b ∧ ¬ Owns s b) → s'.idle = false) ∧
      ((∀ b ∈ l, SoleAgent c b → Owns s b) → s'.idle = s.idle ∧ s'.pools = s.pools) := by
  have hmap : l.zipIdx.map Prod.fst = l := List.zipIdx_map_fst _ _
  have hl' : ∀ e ∈ l.zipIdx, e.1 < c.people.length := fun e he => hl e.1 (by rw [← hmap]; exact List.mem_map_of_mem he)
  obtain ⟨s₁, e1, h1, o1, i1, p1, w1⟩ := h.steps hw hords l.zipIdx hl'
  obtain ⟨s', e2, h2, w2, o2, i2, i3, r2⟩ := h1.advances (ords := fun i => ords (l.length + i)) (fun i => hords (l.length + i)) l.zipIdx hl'
  rw [hmap] at r2 i3
  simp only [hmap] at w1 w2 o2
  have hw1 : ∀ b, Waits s₁ b ↔ b ∈ l ∧ SoleAgent c b ∧ ¬ Owns s b := by
    intro b
    rw [w1]
    by_cases hb : b ∈ l
    · simp [hb]
    · simp [hb, hn b]
  refine ⟨s', ?_, h2, fun b => ?_, fun b => ?_, fun hi => i2 (i1.trans hi), ?_, fun hall => ?_⟩
  · unfold RSE.runBatch
    rw [e1]; exact e2
  · rw [w2, hw1]; exact fun hb => hb.2 hb.1.1
  · rw [o2, hw1, owns_iff (o1 b)]
    by_cases hb : Owns s b
    · simp [hb]
    · simp only [hb, false_or, not_false_eq_true, and_true]
      exact ⟨fun h => h.2, fun h => ⟨h.1, h⟩⟩
  · rintro ⟨b, hb, hS, ho⟩
    exact i3 ⟨b, hb, (hw1 b).2 ⟨hb, hS, ho⟩⟩
  · have e := r2 (fun b hb hwb => by
      obtain ⟨-, q1, q2⟩ := (hw1 b).1 hwb
      exact q2 (hall b hb q1))
    rw [e]; exact ⟨i1, p1⟩

/-- a round -/
theorem Crew.round {c : Config K} (hw : SoleWorld c) {ords : Nat → Nat → List Nat → List Nat} (hords : ∀ i j l, (ords i j l).Perm l) (bs : List (List Nat)) :
    ∀ {s : State K}, (∀ b ∈ bs, ∀ a ∈ b, a < c.people.length) → Crew c s → (∀ b, ¬ Waits s b) →
    ∃ s', roundInBatches ords bs s = .ok s' ∧ Crew c s' ∧ (∀ b, ¬ Waits s' b) ∧ (∀ b, Owns s' b ↔ Owns s b ∨ ((∃ l ∈ bs, b ∈ l) ∧ SoleAgent c b)) ∧
      (s.idle = false → s'.idle = false) ∧ ((∃ b, (∃ l ∈ bs, b ∈ l) ∧ SoleAgent c b ∧ ¬ Owns s b) → s'.idle = false) ∧
      ((∀ b, SoleAgent c b → Owns s b) → s'.idle = s.idle ∧ s'.pools = s.pools) := by
  unfold roundInBatches
  generalize 0 = n
  induction bs generalizing n with
  | nil =>
    intro s _ h hn
    exact ⟨s, rfl, h, hn, fun b => by simp, fun h => h, fun ⟨b, ⟨l, hl, _⟩, _⟩ => by simp at hl, fun _ => ⟨rfl, rfl⟩⟩
  | cons l bs ih =>
    intro s hl h hn
    obtain ⟨s₁, e1, h1, w1, o1, i1, j1, r1⟩ := h.runBatch hw (hords n) (hl l (by simp)) hn
    obtain ⟨s', e2, h2, w2, o2, i2, j2, r2⟩ := ih (n + 1) (fun b hb => hl b (List.mem_cons_of_mem _ hb)) h1 w1
    refine ⟨s', ?_, h2, w2, fun b => ?_, fun hi => i2 (i1 hi), ?_, fun hall => ?_⟩
    · rw [List.zipIdx_cons]
      simp only [iterM]
      rw [e1]; exact e2
    · rw [o2, o1, or_assoc, ← or_and_right]
      simp
    · rintro ⟨b, ⟨l', hl', hb⟩, hS, ho⟩
      by_cases hbl : b ∈ l
      · exact i2 (j1 ⟨b, hbl, hS, ho⟩)
      · rcases List.mem_cons.1 hl' with rfl | hl'
        · exact absurd hb hbl
        · refine j2 ⟨b, ⟨l', hl', hb⟩, hS, fun hc => ?_⟩
          rcases (o1 b).1 hc with hc | hc
          · exact ho hc
          · exact hbl hc.1
    · obtain ⟨k1, k2⟩ := r1 (fun b _ hS => hall b hS)
      obtain ⟨k3, k4⟩ := r2 (fun b hS => (o1 b).2 (.inl (hall b hS)))
      exact ⟨k3.trans k1, k4.trans k2⟩

theorem Crew.onePoolEach {c : Config K} (hw : SoleWorld c) {s : State K} (h : Crew c s) (hall : ∀ b, SoleAgent c b → Owns s b) : OnePoolEach c s := by
  have hg := h.good
  have hq := h.solitary
  refine ⟨fun pid r hp => h.pools hw hp, fun b e hb hS => ?_, ?_⟩
  · obtain ⟨d, hd, hne⟩ := hall b ⟨e, hb, hS⟩
    obtain ⟨ag, σ, ha, hσ, rfl⟩ := ownListOf_some hd
    have hlen := (hq.strategy ha hσ).2
    cases hl : σ.owned with
    | nil => exact absurd hl hne
    | cons x t =>
      rw [hl] at hlen
      cases t with
      | cons _ _ => simp at hlen
      | nil =>
        have ho : σ.owned.get? x.1 = some x.2 := by rw [hl]; simp [Dict.get?]
        refine ⟨x.1, ⟨x.2, hg.inv.owned ha hσ ho⟩, ?_⟩
        rintro pid ⟨r, h1, h2⟩
        have := (hg.inv.own.own_iff b pid r).2 ⟨h1, h2⟩
        rw [ownOf_eq ha hσ, hl] at this
        simp only [Dict.get?] at this
        split at this
        · rename_i heq; exact heq.symm
        · cases this
  · rintro b pid x ⟨ag, σ, ha, hσ, hx⟩
    rw [(hq.strategy ha hσ).1] at hx
    cases hx

theorem crew_init (c : Config K) : Crew c (initState (together c)) ∧ ∀ b, ¬ Waits (initState (together c)) b := by
  have hn : ∀ b, ¬ Waits (initState (together c)) b := by
    rintro b ⟨ag, ν, k1, k2⟩
    rw [(init_agent k1).1] at k2; cases k2
  refine ⟨⟨.init, ?_, (solitary_init (together c)).1, fun b ag ν k1 k2 => absurd ⟨ag, ν, k1, k2⟩ (hn b)⟩, hn⟩
  obtain ⟨k1, k2, k3⟩ := C100_orderly minUnit_pos (c := together c) rfl .init
  exact batch_of (c := together c) minUnit_pos k1 rfl k2 k3

theorem Crew.roundEnd {c : Config K} {s : State K} (h : Crew c s) : Crew c { s with idle := true } := by
  have hcl : Clean (together c) { s with idle := true } := h.clean.next (ev := .roundEnd) trivial (fun p => by simp) (fun _ _ hh => by cases hh) rfl
  have hg := (Reachable.of_single hcl.single).good minUnit_pos
  refine ⟨hcl, ⟨hg.inv, h.batch.sim, ⟨h.batch.books.agree, h.batch.books.good⟩, ?_⟩, ⟨h.solitary.allocs, h.solitary.few⟩, h.staged⟩
  intro b ag σ ν k1 k2 k3
  have S := h.batch.staged b ag σ ν k1 k2 k3
  exact ⟨S.allocs, S.copies, S.fresh⟩

/-! ### C136 -/

/-- C136, rounds.  Simultaneous or semi-simultaneous activation, whatever the batches.  After the first round every agent that would operate exactly one
pool operates one, and that is all; the round is idle iff there are no such agents.  In all later rounds nobody moves.  No exceptions are raised. -/
theorem C136_rounds {c : Config K} (hw : SoleWorld c) {ords : Nat → Nat → List Nat → List Nat} (hords : ∀ i j l, (ords i j l).Perm l) {bs : List (List Nat)}
    (hf : FullRound c.people.length bs) (later : List ((Nat → Nat → List Nat → List Nat) × List (List Nat))) (hl : ∀ e ∈ later, (∀ i j l, (e.1 i j l).Perm l) ∧ ∀ b ∈ e.2, ∀ a ∈ b, a < c.people.length) :
    ∃ s u, roundInBatches ords bs (initState (together c)) = .ok s ∧ OnePoolEach c s ∧
      (s.idle = true ↔ ∀ (b : Nat) e, c.people[b]? = some e → ¬ Sole c e) ∧
      iterM (fun v e => roundInBatches e.1 e.2 v) s later = .ok u ∧ OnePoolEach c u ∧ u.idle = s.idle ∧ u.pools = s.pools := by
  obtain ⟨h0, hn0⟩ := crew_init c
  have hno := (solitary_init (together c)).2
  obtain ⟨s, e1, h1, w1, o1, i1, j1, r1⟩ := h0.round hw hords bs hf.agents hn0
  have hin : ∀ {b}, SoleAgent c b → ∃ l ∈ bs, b ∈ l := fun ⟨e, hb, _⟩ => hf.all _ (List.getElem?_eq_some_iff.1 hb).1
  have hall : ∀ b, SoleAgent c b → Owns s b := fun b hS => (o1 b).2 (.inr ⟨hin hS, hS⟩)
  have key : ∀ (later : List ((Nat → Nat → List Nat → List Nat) × List (List Nat))), (∀ e ∈ later, (∀ i j l, (e.1 i j l).Perm l) ∧ ∀ b ∈ e.2, ∀ a ∈ b, a < c.people.length) → ∀ s, Crew c s → (∀ b, ¬ Waits s b) →
      (∀ b, SoleAgent c b → Owns s b) →
      ∃ u, iterM (fun v e => roundInBatches e.1 e.2 v) s later = .ok u ∧ OnePoolEach c u ∧ u.idle = s.idle ∧ u.pools = s.pools := by
    intro later
    induction later with
    | nil => intro _ s h _ ha; exact ⟨s, rfl, h.onePoolEach hw ha, rfl, rfl⟩
    | cons e later ih =>
      intro hl s h hn ha
      obtain ⟨s₁, e1, h1, w1, o1, i1, j1, r1⟩ := h.round hw (hl e (by simp)).1 e.2 (hl e (by simp)).2 hn
      obtain ⟨k1, k2⟩ := r1 ha
      obtain ⟨u, e2, h2, k3, k4⟩ := ih (fun b hb => hl b (List.mem_cons_of_mem _ hb)) s₁ h1 w1 (fun b hS => (o1 b).2 (.inl (ha b hS)))
      refine ⟨u, ?_, h2, k3.trans k1, k4.trans k2⟩
      simp only [iterM]
      rw [e1]; exact e2
  obtain ⟨u, e2, h2, k1, k2⟩ := key later hl s h1 w1 hall
  refine ⟨s, u, e1, h1.onePoolEach hw hall, ⟨fun hi b e hb hS => ?_, fun hnone => ?_⟩, e2, h2, k1, k2⟩
  · rw [j1 ⟨b, hin ⟨e, hb, hS⟩, ⟨e, hb, hS⟩, hno b⟩] at hi
    cases hi
  · exact (r1 (fun b ⟨e, hb, hS⟩ => absurd hS (hnone b e hb))).1

variable {R : Type}

/-- the history of a run: round 0 is idle iff nobody would operate a pool, all other rounds are idle -/
theorem together_history {c : Config K} (hw : SoleWorld c) {ords : Nat → Nat → Nat → List Nat → List Nat} (hords : ∀ i j m l, (ords i j m l).Perm l) {bs : Nat → List (List Nat)}
    (hf : ∀ i, FullRound c.people.length (bs i)) {report : State K → Py R} {conv : Int}
    {phases : Nat → PhaseParams K} {h : List (Round (State K))} {w : State K}
    (hh : History (batchesEnv ords bs report conv 1 phases) (initState (together c)) h w) (hnc : ∀ r ∈ h, r.phaseChange = false) :
    Crew c w ∧ (∀ b, ¬ Waits w b) ∧ w.idle = true ∧ (h = [] → w = initState (together c)) ∧ (h ≠ [] → ∀ b, SoleAgent c b → Owns w b) ∧
      (∀ r ∈ h, OnePoolEach c r.after) ∧ ∀ i (hi : i < h.length), (h[i]).after.idle = true ↔ 0 < i ∨ ∀ b, ¬ SoleAgent c b := by
  induction hh with
  | start =>
    obtain ⟨h0, hn0⟩ := crew_init c
    exact ⟨h0, hn0, rfl, fun _ => rfl, fun h => absurd rfl h, by simp, by simp⟩
  | @round h w₁ w₂ hh he ih =>
    obtain ⟨i1, i0, i2, i3, i4, i5, i6⟩ := ih (fun r hr => hnc r (List.mem_append_left _ hr))
    have he : roundInBatches (ords h.length) (bs h.length) w₁ = .ok w₂ := he
    obtain ⟨s, g1, g2, g3, g4, g5, g6, g7⟩ := i1.round hw (hords h.length) (bs h.length) (hf h.length).agents i0
    rw [he] at g1
    cases g1
    have hin : ∀ {b}, SoleAgent c b → ∃ l ∈ bs h.length, b ∈ l := fun ⟨e, hb, _⟩ => (hf h.length).all _ (List.getElem?_eq_some_iff.1 hb).1
    have hall : ∀ b, SoleAgent c b → Owns w₂ b := fun b hS => (g4 b).2 (.inr ⟨hin hS, hS⟩)
    have hone := g2.onePoolEach hw hall
    have key : w₂.idle = true ↔ 0 < h.length ∨ ∀ b, ¬ SoleAgent c b := by
      by_cases hn : h = []
      · rw [i3 hn] at g6 g7
        have hno := (solitary_init (together c)).2
        constructor
        · intro hi
          refine .inr (fun b hS => ?_)
          rw [g6 ⟨b, hin hS, hS, hno b⟩] at hi
          cases hi
        · intro hor
          have hnone := hor.resolve_left (by rw [hn]; simp)
          exact (g7 (fun b hS => absurd hS (hnone b))).1
      · rw [(g7 (i4 hn)).1, i2]
        simp [List.length_pos_iff.2 hn]
    refine ⟨g2.roundEnd, g3, rfl, fun h => by simp at h, fun _ => hall, ?_, ?_⟩
    · intro r hr
      rcases List.mem_append.1 hr with hr | hr
      · exact i5 r hr
      · simp only [List.mem_singleton] at hr; rw [hr]; exact hone
    · intro i hi
      by_cases hil : i < h.length
      · rw [List.getElem_append_left hil]; exact i6 i hil
      · have : i = h.length := by simp at hi; omega
        subst this
        simpa using key
  | @change h w₁ w₂ w₃ hh he hcp ih =>
    have := hnc ⟨w₁, w₂, true⟩ (by simp)
    cases this

/-- C136, the whole run.  If there is an agent that would operate exactly one pool, and `max_iterations` is greater than `iterations_after_convergence`, then a
run ends after `iterations_after_convergence + 1` rounds and reports an equilibrium at step 0, in which those agents operate one pool each. -/
theorem C136_run {c : Config K} (hw : SoleWorld c) {ords : Nat → Nat → Nat → List Nat → List Nat} (hords : ∀ i j m l, (ords i j m l).Perm l)
    {bs : Nat → List (List Nat)} (hf : ∀ i, FullRound c.people.length (bs i)) {report : State K → Py R} {conv : Int} (hconv : 1 ≤ conv)
    {phases : Nat → PhaseParams K} {m : Int} (hm : conv + 1 ≤ m) {fuel : Nat} {l : Loop (State K) R}
    (hl : Loop.runModel (batchesEnv ords bs report conv 1 phases) fuel (Loop.init (initState (together c)) m) = .ok l)
    (hsome : ∃ (b : Nat) (e : K × K × Profile), c.people[b]? = some e ∧ Sole c e) :
    l.exports = [true] ∧ (l.steps : Int) = conv + 1 ∧ l.eqSteps = [0] ∧ OnePoolEach c l.world := by
  have hnone : ¬ ∀ b, ¬ SoleAgent c b := fun h => by
    obtain ⟨b, e, h1, h2⟩ := hsome; exact h b ⟨e, h1, h2⟩
  set env := batchesEnv ords bs report conv 1 phases with henv
  obtain ⟨h, -, hmeq, hle, hh⟩ := (Track.init env (initState (together c)) m).loop_max (fun _ => rfl) fuel (by simp [Loop.init]; omega) hl
  have hidle : ∀ {w : State K} {h : List (Round (State K))}, History env (initState (together c)) h w → (∀ r ∈ h, r.phaseChange = false) →
      ∀ i (hi : i < h.length), (h[i]).Idle env ↔ 0 < i := by
    intro w h hh hnc i hi
    have := (together_history hw hords hf hh hnc).2.2.2.2.2.2 i hi
    rw [or_iff_left hnone] at this
    exact this
  obtain ⟨h', w', f1, f2, f3, f4, f5⟩ := C34_first env (fun _ => rfl) le_rfl (initState (together c)) m (by omega) fuel l hl
  have f1 : History env (initState (together c)) h' w' := f1
  have hid := hidle f1 f3
  have hcv : env.conv = conv := rfl
  rw [hcv] at f4 f5
  have hlast : ∀ n, n ≤ h'.length → conv + 1 ≤ (n : Int) → LastIdle env (h'.take n) conv := by
    intro n hn h1
    have hlen : (h'.take n).length = n := by rw [List.length_take]; omega
    refine ⟨by omega, fun i hi h2 => ?_⟩
    rw [List.getElem_take]
    rw [hlen] at h2
    exact (hid i (by omega)).2 (by omega)
  have hlen : (h'.length : Int) = conv + 1 ∧ l.eqSteps = [0] := by
    rcases f5 with ⟨g1, ⟨g2, g3⟩, -⟩ | ⟨-, g2, g3⟩
    · have h1 : conv + 1 ≤ (h'.length : Int) := by
        by_contra hcon
        have := (hid 0 (by omega)).1 (g3 0 (by omega) (by omega))
        omega
      have h2 : (h'.length : Int) ≤ conv + 1 := by
        by_contra hcon
        obtain ⟨n, hn⟩ : ∃ n : Nat, (n : Int) = conv + 1 := ⟨(conv + 1).toNat, by omega⟩
        exact f4 n (by omega) (by omega) (by omega) ((hid _ (by omega)).2 (by omega)) (hlast n (by omega) hn.ge)
      have h3 : (h'.length : Int) = conv + 1 := le_antisymm h2 h1
      refine ⟨h3, ?_⟩
      rw [g1, h3]; congr 1; ring
    · exfalso
      have hpos : h'.length - 1 < h'.length := by omega
      have hgl : h'.getLast? = some h'[h'.length - 1] := by
        rw [List.getLast?_eq_getElem?]; exact List.getElem?_eq_getElem hpos
      refine g3 _ hgl ((hid _ hpos).2 (by omega)) ?_
      have := hlast h'.length le_rfl (by omega)
      rwa [List.take_length] at this
  rw [f2] at hlen
  refine ⟨?_, hlen.1, hlen.2, ?_⟩
  all_goals
    rcases hh with hh | hh
    · exfalso
      have := hh.eqSteps
      rw [hlen.2] at this
      obtain ⟨i, hi, -, hp⟩ := mem_eqOf (s := 0) (by rw [← this]; simp)
      have hz : changes h = 0 := Nat.le_zero.1 hh.phases
      unfold changes at hz
      rw [List.countP_eq_zero] at hz
      exact hz _ (List.getElem_mem hi) hp
  · exact hh.exports
  · obtain ⟨h₀, w₀, hpre, -⟩ := hh.prefix'
    have hz : changes h = 0 := hh.phases
    have hnc : ∀ r ∈ h, r.phaseChange = false := by
      intro r hr
      unfold changes at hz
      rw [List.countP_eq_zero] at hz
      simpa using hz r hr
    exact (together_history hw hords hf hh.hist hnc).2.2.2.2.2.1 ⟨w₀, l.world, false⟩ (by rw [hpre]; simp)

/-- what is to be seen of a pool from outside, apart from its id and margin -/
def facade (p : Pool K) : Nat × K × K × K × Bool := (p.owner, p.pledge, p.stake, p.cost, p.isPrivate)

theorem OnePoolEach.facade {c : Config K} {s u : State K} (hs : OnePoolEach c s) (hu : OnePoolEach c u) {pid : Nat} {r : Ref} (hp : s.pools.get? pid = some r) :
    ∃ pid' r', u.pools.get? pid' = some r' ∧ facade (u.heap r') = facade (s.heap r) := by
  obtain ⟨⟨e, k1, k2, k3⟩, k4, k5, k6, -⟩ := hs.pools pid r hp
  obtain ⟨pid', ⟨r', q1, q2⟩, -⟩ := hu.one _ e k1 k2
  obtain ⟨⟨e', m1, -, m3⟩, m4, m5, m6, -⟩ := hu.pools pid' r' q1
  rw [q2, k1] at m1
  cases m1
  refine ⟨pid', r', q1, ?_⟩
  unfold Props.facade
  rw [q2, k3, k4, k5, k6, m3, m4, m5, m6]

/-- C136, comparison.  A simultaneous or semi-simultaneous first round leads to the same pools as a sequential one, apart from their ids and margins. -/
theorem C136_as_sequential {c : Config K} (hw : SoleWorld c) {ordb : Nat → Nat → List Nat → List Nat} (hordb : ∀ i j l, (ordb i j l).Perm l) {bs : List (List Nat)}
    (hf : FullRound c.people.length bs) {ords : Nat → List Nat → List Nat} (hords : ∀ i l, (ords i l).Perm l) {order : List Nat}
    (hfull : ∀ a, a ∈ order ↔ a < c.people.length) :
    ∃ s u, roundSequential ords order (initState c) = .ok s ∧ roundInBatches ordb bs (initState (together c)) = .ok u ∧
      (∀ pid r, s.pools.get? pid = some r → ∃ pid' r', u.pools.get? pid' = some r' ∧ facade (u.heap r') = facade (s.heap r)) ∧
      (∀ pid r, u.pools.get? pid = some r → ∃ pid' r', s.pools.get? pid' = some r' ∧ facade (s.heap r') = facade (u.heap r)) := by
  obtain ⟨s, h1, -, h2, -⟩ := C113_first_round hw hords hfull
  obtain ⟨u, -, k1, k2, -⟩ := C136_rounds hw hordb hf [] (by simp)
  exact ⟨s, u, h1, k1, fun pid r hp => h2.facade k2 hp, fun pid r hp => k2.facade h2 hp⟩

/-- C136 for the schedulers of the model: one simultaneous round. -/
theorem C136_simultaneous {c : Config K} (hw : SoleWorld c) {ords : Nat → List Nat → List Nat} (hords : ∀ i l, (ords i l).Perm l) {order : List Nat}
    (h1 : order.Perm (List.range c.people.length)) :
    ∃ s, roundSimultaneous ords order (initState (together c)) = .ok s ∧ OnePoolEach c s := by
  obtain ⟨s, -, e1, m1, -⟩ := C136_rounds hw (fun _ => hords) (FullRound.simultaneous h1) [] (by simp)
  exact ⟨s, by rw [roundInBatches_simultaneous]; exact e1, m1⟩

/-- … and one semi-simultaneous round. -/
theorem C136_semi {c : Config K} (hw : SoleWorld c) {ords : Nat → Nat → List Nat → List Nat} (hords : ∀ i j l, (ords i j l).Perm l) {z : Nat} (hz : 1 ≤ z)
    {sample : List Nat → Nat → List Nat} (h1 : SampleOK sample) :
    ∃ s, roundSemi z sample ords (List.range c.people.length) (initState (together c)) = .ok s ∧ OnePoolEach c s := by
  obtain ⟨s, -, e1, m1, -⟩ := C136_rounds hw hords (FullRound.semi hz h1) [] (by simp)
  exact ⟨s, by rw [roundInBatches_semi]; exact e1, m1⟩

/-! ### A simulation that the theorems are about -/

/-- the demonstration of C113, in batches of two: no pools before the first round, two pools after it; three idle rounds follow -/
example : SoleWorld soleDemo ∧ FullRound soleDemo.people.length [[3, 0], [2, 1]] ∧ ∃ l, Loop.runModel (batchesEnv (fun _ _ _ => id) (fun _ => [[3, 0], [2, 1]])
    (fun s => .ok (poolCount s)) 3 1 (fun _ => {})) 21 (Loop.init (initState (together soleDemo)) 20) = .ok l ∧
    outcome l = (4, [0, 2, 2, 2], [0], [], false, [true]) := by
  refine ⟨soleDemo_world.1, ⟨by decide, by decide, ?_⟩, run_outcome (by decide +kernel)⟩
  intro a ha
  have ha : a < 4 := ha
  interval_cases a <;> simp

/-- and all at once -/
example : ∃ l, Loop.runModel (batchesEnv (fun _ _ _ => id) (fun _ => [[3, 0, 2, 1]]) (fun s => .ok (poolCount s)) 3 1 (fun _ => {})) 21
    (Loop.init (initState (together soleDemo)) 20) = .ok l ∧ outcome l = (4, [0, 2, 2, 2], [0], [], false, [true]) := run_outcome (by decide +kernel)

end RSE.Props
