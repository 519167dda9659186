import Verif.Lemmas.Relax
import Verif.Props.Structure
import Verif.Spec.Demo

/-!
# C81: the figures that pools carry and are ranked by are up to date

`potential_profit` and `desirability` are stored in the pool objects and have to be recomputed whenever pledge, cost, margin or the reward scheme
change.  The specification below is written from the formulas of the schemes for a saturated pool, not with the functions of the model.
-/

set_option linter.unusedSectionVars false

namespace RSE.Props

variable {K : Type} [Field K] [LinearOrder K] [IsStrictOrderedRing K]

/-- what a saturated pool with this pledge earns (`b` is the global saturation threshold) -/
def saturatedReward (scheme : Scheme) (b a0 pledge : K) : K :=
  if scheme = .cip50 then min (a0 * pledge) b else (b + a0 * min pledge b) / (1 + a0)

theorem potentialProfit_eq {rs : RS K} (hb : 0 < rs.beta) (pledge cost : K) :
    potentialProfit rs pledge cost = saturatedReward rs.scheme rs.beta rs.a0 pledge - cost := by
  unfold potentialProfit saturatedReward
  congr 1
  by_cases h : rs.scheme = .cip50
  · rw [if_pos h]
    unfold RS.reward RS.sat
    rw [h]
    simp [totalRewards]
  · rw [if_neg h]
    have key := saturated_linear h hb (min_le_right pledge rs.beta)
    rw [← key]
    have hsat : ∀ q, rs.sat q = rs.beta := by
      intro q
      unfold RS.sat
      split
      · rename_i h'; exact absurd h' h
      · rfl
    rw [hsat, hsat]
    unfold RS.reward
    cases hs : rs.scheme with
    | cip50 => exact absurd hs h
    | cardano => simp only [min_self, min_eq_left (min_le_right pledge rs.beta)]
    | simplified => simp only [min_self, min_eq_left (min_le_right pledge rs.beta)]
    | flat => simp only [min_self, min_eq_left (min_le_right pledge rs.beta)]

/-- the potential profit of every open pool belongs to its pledge and cost and the current scheme -/
def PoolsCurrent (s : State K) : Prop := ∀ pid r, s.pools.get? pid = some r →
  (s.heap r).pp = potentialProfit s.rs (s.heap r).pledge (s.heap r).cost

theorem Did.poolsCurrent {c : Config K} {s s' : State K} {ev : Event K} (hr : Reachable c s) (hc : c.simultaneous = false)
    (h0 : ∀ e ∈ c.people, 0 ≤ e.1) (hv : ev.Valid c.people.length)
    (hd : Did (c.rs.k + 1) (c.simultaneous = false) s ev s') (h : PoolsCurrent s) : PoolsCurrent s' := by
  have hg := hr.good minUnit_pos
  have hi := hg.inv
  have hold : ∀ {me : Nat} {ag : Agent K} {σ : Strategy K} {oν : Option (Strategy K)} {s₁ s₂ : State K},
      StepPlan (c.rs.k + 1) s s₂ me ag σ oν s₁ → PoolsCurrent s₂ := by
    intro me ag σ oν s₁ s₂ hpl pid r hp
    have hpo : s₂.pools = s.pools := by rw [hpl.eq]; exact hpl.planned.pools
    have hrs : s₂.rs = s.rs := by rw [hpl.eq]; exact hpl.planned.rs
    rw [hpo] at hp
    have : SamePool (s.heap r) (s₂.heap r) := by
      rw [hpl.eq]
      exact hpl.planned.same r (hi.core.poolRef _ _ hp).1
    rw [this.pp, this.pledge, this.cost, hrs]
    exact h pid r hp
  cases hd with
  | idle => exact h
  | plan me ord ag σ oν s₁ s' ha hp hσ hpm hpl => exact hold hpl
  | move me ord ag σ ν s₁ s₂ s₃ ha hp hσ hpm hpl hsim ht hex hd hinv hds =>
    have hid : ag.id = me := hi.core.agentId me ag ha
    have h2 := hold hpl
    have ht := hi.tidy me ag ha
    have hag : 0 ≤ ag.stake := h0 _ (List.mem_of_getElem? (hg.person ha))
    have hsh := planMove_shaped hi.core hv.2 (ht.allocs _ hσ) (ht.owned _ hσ) (fun pid r hr => (hi.owned ha hσ hr).1) hag hpm True rfl
    have hrs2 : s₂.rs = s.rs := by rw [hpl.eq]; exact hpl.planned.rs
    have hrs : s₃.rs = s.rs := by rw [hd.frame]; exact hrs2
    have hheap : s₂.heap = s₁.heap := by rw [hpl.eq]; rfl
    change PoolsCurrent s₃
    intro pid r hp3
    obtain ⟨ag', σ', ha', hσ', ho'⟩ := hd.inv.owner hp3
    have hs3 := hd.same r
    rw [hs3.pp, hs3.pledge, hs3.cost, hrs]
    by_cases hbm : (s₃.heap r).owner = me
    · rw [hbm] at ha'
      have hsk := hd.mine
      rw [ha'] at hsk
      cases h1 : s₂.agents.get? me with
      | none => rw [h1] at hsk; cases hsk
      | some ag₂ =>
        rw [h1] at hsk
        simp only [Option.map_some, Option.some.injEq, Agent.skel, Prod.mk.injEq, hσ'] at hsk
        have hr' : r ∈ ν.owned.vals := List.mem_map.2 ⟨(pid, r), Dict.mem_of_get? (by rw [← hsk.2.2.2.2.1]; exact ho'), rfl⟩
        have hlen : 0 < ν.owned.length := by rw [← length_vals]; exact List.length_pos_of_mem hr'
        obtain ⟨q, hq⟩ : ∃ q, pledgePerPool ag.stake s.rs.beta ν.owned.length = .ok q := by simp [pledgePerPool, hlen.ne']
        obtain ⟨co, hco⟩ : ∃ co, costPerPool ν.owned.length ag.cost s.extraFrac = .ok co := by simp [costPerPool, hlen.ne']
        obtain ⟨k1, k2, -, k4⟩ := hsh.pools q co hq hco r hr'
        rw [hheap, k4 trivial, k1, k2]
    · have hsk := hd.others _ hbm
      rw [ha'] at hsk
      cases h1 : s₂.agents.get? (s₃.heap r).owner with
      | none => rw [h1] at hsk; cases hsk
      | some ag₂ =>
        rw [h1] at hsk
        simp only [Option.map_some, Option.some.injEq] at hsk
        obtain ⟨-, -, k3, -⟩ := skel_eq hsk
        rw [hσ'] at k3
        cases hs2 : ag₂.strategy with
        | none => rw [hs2] at k3; cases k3
        | some σ₂ =>
          rw [hs2] at k3
          have ho2 : σ₂.owned.get? pid = some r := by
            have : σ'.owned = σ₂.owned := Option.some.inj k3
            rw [← this]; exact ho'
          have := h2 pid r (hpl.inv.owned h1 hs2 ho2).1
          rw [hrs2] at this
          exact this
  | skip => exact h
  | adv me ord ag σ ν s₃ ha hσ hν hex hd hinv ht => exact absurd hc ht
  | phase p s' hp =>
    intro pid r hpr
    rw [hp.pools] at hpr
    have hmem : r ∈ s.pools.vals := List.mem_map.2 ⟨(pid, r), Dict.mem_of_get? hpr, rfl⟩
    rw [hp.heap r, if_pos hmem]
    rfl
  | roundEnd => exact h

/-- the pool's figures are what the formulas say -/
structure FiguresCurrent (s : State K) (p : Pool K) : Prop where
  profit : p.pp = saturatedReward s.rs.scheme s.rs.beta s.rs.a0 p.pledge - p.cost
  desirability : p.des = max ((1 - p.margin) * p.pp) 0
  margin_nonneg : 0 ≤ p.margin
  margin_le : p.margin ≤ 1

/-- C81.  Sequential or random activation, any phases: in every reachable state the potential profit of every open pool is what it would earn if
saturated under the *current* parameters, minus its cost, and its desirability is the part of it that the margin leaves to delegators (or 0). -/
theorem C81_figures_current {c : Config K} {s : State K} (h : Reachable c s) (hc : c.simultaneous = false) (h0 : ∀ e ∈ c.people, 0 ≤ e.1)
    (hb : 0 < c.rs.beta) {pid : Nat} {r : Ref} (hp : s.pools.get? pid = some r) : FiguresCurrent s (s.heap r) := by
  have hcur : PoolsCurrent s := Reachable.induct' (P := PoolsCurrent) minUnit_pos (by intro pid r h; cases h)
    (fun s ev s' hr _ _ hs hv _ hd => Did.poolsCurrent hr hc h0 hv hd hs) h
  have hf := h.fair r
  refine ⟨?_, hf.des, hf.margin_nonneg, hf.margin_le⟩
  rw [hcur pid r hp, potentialProfit_eq (h.shaped h0 hb).1]

/-- C81.  The same within one phase in all modes of activation (with the parameters of the simulation). -/
theorem C81_figures_current_single_phase {c : Config K} {s : State K} (h : ReachableSinglePhase c s) (h0 : ∀ e ∈ c.people, 0 ≤ e.1)
    (hb : 0 < c.rs.beta) {pid : Nat} {r : Ref} (hp : s.pools.get? pid = some r) : FiguresCurrent s (s.heap r) := by
  have hr := Reachable.of_single h
  have hg := hr.good minUnit_pos
  have hf := hr.fair r
  refine ⟨?_, hf.des, hf.margin_nonneg, hf.margin_le⟩
  obtain ⟨ag, σ, ha, hσ, ho⟩ := hg.inv.owner hp
  obtain ⟨rs, f, ⟨rfl, rfl⟩, hsh⟩ := (h.shaped h0 _ _ ha).strategy σ hσ
  have hr' : r ∈ σ.owned.vals := List.mem_map.2 ⟨(pid, r), Dict.mem_of_get? ho, rfl⟩
  have hlen : 0 < σ.owned.length := by rw [← length_vals]; exact List.length_pos_of_mem hr'
  obtain ⟨q, hq⟩ : ∃ q, pledgePerPool ag.stake c.rs.beta σ.owned.length = .ok q := by simp [pledgePerPool, hlen.ne']
  obtain ⟨co, hco⟩ : ∃ co, costPerPool σ.owned.length ag.cost c.extraFrac = .ok co := by simp [costPerPool, hlen.ne']
  obtain ⟨k1, k2, -, k4⟩ := hsh.pools q co hq hco r hr'
  have hrs : s.rs = c.rs := (h.params minUnit_pos).rs
  rw [k4 trivial, k1, k2, potentialProfit_eq hb, hrs]

/-- how `p` can come to be listed before `p'`: it is more desirable, or equally desirable and more profitable, or equal in both and older -/
def ListedFirst (p p' : Pool K) : Prop :=
  p'.des < p.des ∨ (p'.des = p.des ∧ (p'.pp < p.pp ∨ (p'.pp = p.pp ∧ p.id < p'.id)))

/-- what is left for the delegators of the pool at its current stake -/
def currentWorth (rs : RS K) (p : Pool K) : K := max ((1 - p.margin) * (rs.reward p.pledge p.stake - p.cost)) 0

/-- ... and for the myopic ranking: worth more at the current stakes, or worth the same and older -/
def ListedFirstNow (rs : RS K) (p p' : Pool K) : Prop :=
  currentWorth rs p' < currentWorth rs p ∨ (currentWorth rs p' = currentWorth rs p ∧ p.id < p'.id)

theorem two_le_count {α : Type} [BEq α] [LawfulBEq α] {l : List α} {a : α} {i j : Nat} (hij : i < j) (hi : l[i]? = some a) (hj : l[j]? = some a) : 2 ≤ l.count a := by
  rw [← List.take_append_drop j l, List.count_append]
  have h1 : a ∈ l.take j := List.mem_of_getElem? (i := i) (by rw [List.getElem?_take, if_pos hij]; exact hi)
  have h2 : a ∈ l.drop j := List.mem_of_getElem? (i := 0) (by rw [List.getElem?_drop]; exact hj)
  have := List.count_pos_iff.2 h1
  have := List.count_pos_iff.2 h2
  omega

theorem pairwise_at {α : Type} {R : α → α → Prop} {l : List α} (h : l.Pairwise R) {i j : Nat} (hij : i < j) {a b : α} (hi : l[i]? = some a)
    (hj : l[j]? = some b) : R a b := by
  obtain ⟨h1, rfl⟩ := List.getElem?_eq_some_iff.1 hi
  obtain ⟨h2, rfl⟩ := List.getElem?_eq_some_iff.1 hj
  exact List.pairwise_iff_getElem.1 h i j h1 h2 hij

/-- C81.  Any state of any simulation: a pool listed before another one in `pool_rankings` (`pool_rankings_myopic`) outranks it. -/
theorem C81_order_of_rankings {c : Config K} {s : State K} (h : Reachable c s) {i j : Nat} (hij : i < j) {r r' : Ref} :
    (s.rank.vals[i]? = some (some r) → s.rank.vals[j]? = some (some r') → ListedFirst (s.heap r) (s.heap r')) ∧
    (s.rankM.vals[i]? = some (some r) → s.rankM.vals[j]? = some (some r') → ListedFirstNow s.rs (s.heap r) (s.heap r')) := by
  have hcore := (h.good minUnit_pos).inv.core
  obtain ⟨hsort, hsortM⟩ := rankings_in_order minUnit_pos h
  obtain ⟨honce, honly, -, -⟩ := C15_rankings_list_open_pools minUnit_pos h
  have hopen : ∀ q : Ref, (some q ∈ s.rank.vals ∨ some q ∈ s.rankM.vals) → ∃ pid, s.pools.get? pid = some q := by
    intro q hq
    by_contra hno
    push Not at hno
    exact hq.elim (honly q hno).1 (honly q hno).2
  have hids : r ≠ r' → (∃ pid, s.pools.get? pid = some r) → (∃ pid, s.pools.get? pid = some r') → (s.heap r).id ≠ (s.heap r').id := by
    rintro hne ⟨pid, h1⟩ ⟨pid', h2⟩ heq
    rw [(hcore.poolRef _ _ h1).2.1, (hcore.poolRef _ _ h2).2.1] at heq
    subst heq
    rw [h1] at h2
    exact hne (Option.some.inj h2)
  constructor
  · intro hi hj
    have ho := hopen r (Or.inl (List.mem_of_getElem? hi))
    have ho' := hopen r' (Or.inl (List.mem_of_getElem? hj))
    have hne : r ≠ r' := by
      rintro rfl
      obtain ⟨pid, hp⟩ := ho
      have h1 := (honce pid r hp).1
      have h2 := two_le_count hij hi hj
      omega
    have hle : poolKey (s.heap r) ≤ poolKey (s.heap r') := pairwise_at hsort hij hi hj
    have hid := hids hne ho ho'
    unfold poolKey at hle
    rw [Prod.Lex.toLex_le_toLex] at hle
    simp only [neg_lt_neg_iff, neg_inj] at hle
    rcases hle with hle | ⟨h1, h2⟩
    · exact Or.inl hle
    · rw [Prod.Lex.toLex_le_toLex] at h2
      simp only [neg_lt_neg_iff, neg_inj] at h2
      refine Or.inr ⟨h1.symm, ?_⟩
      rcases h2 with h2 | ⟨h2, h3⟩
      · exact Or.inl h2
      · exact Or.inr ⟨h2.symm, lt_of_le_of_ne h3 hid⟩
  · intro hi hj
    have ho := hopen r (Or.inr (List.mem_of_getElem? hi))
    have ho' := hopen r' (Or.inr (List.mem_of_getElem? hj))
    have hne : r ≠ r' := by
      rintro rfl
      obtain ⟨pid, hp⟩ := ho
      have h1 := (honce pid r hp).2
      have h2 := two_le_count hij hi hj
      omega
    have hle : poolKeyM s.rs (s.heap r) ≤ poolKeyM s.rs (s.heap r') := pairwise_at hsortM hij hi hj
    have hid := hids hne ho ho'
    unfold poolKeyM at hle
    rw [Prod.Lex.toLex_le_toLex] at hle
    simp only [neg_lt_neg_iff, neg_inj] at hle
    rcases hle with hle | ⟨h1, h2⟩
    · exact Or.inl hle
    · exact Or.inr ⟨h1.symm, lt_of_le_of_ne h2 hid⟩

/-! ### The hypotheses are met -/

/-- the demonstration with a change of `k` and `a0` after two rounds; the figures of the three pools (profit, desirability) before and after -/
example : ∃ s s', Reachable (demo false) s ∧ Reachable (demo false) s' ∧
    (s.pools.map (fun e => ((s.heap e.2).pp, (s.heap e.2).des))) = [(11761 / 39000, 5411 / 19500), (5411 / 19500, 10640039 / 39000000), (298 / 975, 266 / 975)] ∧
    (s'.pools.map (fun e => ((s'.heap e.2).pp, (s'.heap e.2).des))) = [(199 / 1000, 1076789 / 5880500), (247 / 1500, 2628089633 / 16233000000), (9 / 50, 1197 / 7450)] := by
  have hv : ∀ e ∈ demoRound ++ demoRound, e.Valid (demo false).people.length := fun e he => (demoRounds_valid e he).1
  obtain ⟨s, h1, h2⟩ : ∃ s, iterM exec (initState (demo false)) (demoRound ++ demoRound) = .ok s ∧
      (s.pools.map (fun e => ((s.heap e.2).pp, (s.heap e.2).des))) = [(11761 / 39000, 5411 / 19500), (5411 / 19500, 10640039 / 39000000), (298 / 975, 266 / 975)] := by
    have key : (iterM exec (initState (demo false)) (demoRound ++ demoRound)).toOption.map
      (fun s => s.pools.map (fun e => ((s.heap e.2).pp, (s.heap e.2).des))) = some [(11761 / 39000, 5411 / 19500), (5411 / 19500, 10640039 / 39000000), (298 / 975, 266 / 975)] := by decide +kernel
    obtain ⟨s, h1, h2⟩ := Option.map_eq_some_iff.1 key
    exact ⟨s, toOption_ok h1, h2⟩
  obtain ⟨s', h3, h4⟩ : ∃ s, iterM exec (initState (demo false)) (demoRound ++ demoRound ++ [.phase { k := some 5, a0 := some (1/2) }]) = .ok s ∧
      (s.pools.map (fun e => ((s.heap e.2).pp, (s.heap e.2).des))) = [(199 / 1000, 1076789 / 5880500), (247 / 1500, 2628089633 / 16233000000), (9 / 50, 1197 / 7450)] := by
    have key : (iterM exec (initState (demo false)) (demoRound ++ demoRound ++ [.phase { k := some 5, a0 := some (1/2) }])).toOption.map
      (fun s => s.pools.map (fun e => ((s.heap e.2).pp, (s.heap e.2).des))) = some [(199 / 1000, 1076789 / 5880500), (247 / 1500, 2628089633 / 16233000000), (9 / 50, 1197 / 7450)] := by decide +kernel
    obtain ⟨s, h1, h2⟩ := Option.map_eq_some_iff.1 key
    exact ⟨s, toOption_ok h1, h2⟩
  refine ⟨s, s', ⟨_, hv, h1⟩, ⟨_, fun e he => ?_, h3⟩, h2, h4⟩
  rcases List.mem_append.1 he with he | he
  · exact hv e he
  · simp only [List.mem_singleton] at he; subst he; trivial

example : (demo false).simultaneous = false ∧ (∀ e ∈ (demo false).people, 0 ≤ e.1) ∧ 0 < (demo false).rs.beta := by decide +kernel

end RSE.Props
