import Verif.Model.MinPledge
import Verif.Props.Simultaneous
import Verif.Props.Metrics
import Verif.Props.MetricMeaning
import Mathlib.Algebra.BigOperators.Group.Finset.Piecewise

/-!
# C92: the minimum aggregate pledge
-/

set_option linter.unusedSectionVars false

namespace RSE.Props

variable {K : Type} [Field K] [LinearOrder K] [IsStrictOrderedRing K]

/-! ### What is assumed of the solver -/

/-- the sum of the coefficients whose variable is 1 -/
def weigh (x : List Bool) (l : List K) : K := ((x.zip l).map (fun e => if e.1 then e.2 else 0)).sum

/-- the values the objective takes in the feasible points -/
def feasibleValues (p w : List K) (b : K) : Set K := {v | ∃ x : List Bool, x.length = p.length ∧ b ≤ weigh x w ∧ v = weigh x p}

/-- the solver finds the optimum of every problem that has feasible points -/
def Exact (solve : BinarySolver K) : Prop :=
  ∀ p w b, p.length = w.length → (feasibleValues p w b).Nonempty → ∃ v, solve p w b = some v ∧ IsLeast (feasibleValues p w b) v

/-! ### The meaning of the metric -/

/-- the sum of an attribute of the open pools with ids in `A` -/
def among (s : State K) (f : Pool K → K) (A : Finset Nat) : K := (s.pools.map (fun e => if e.1 ∈ A then f (s.heap e.2) else 0)).sum

/-- the stake of the agents in `A` -/
def wealth (s : State K) (A : Finset Nat) : K := (s.agents.map (fun e => if e.1 ∈ A then e.2.stake else 0)).sum

theorem foldl_add_sum (l : List K) (a : K) : l.foldl (· + ·) a = a + l.sum := by
  induction l generalizing a with
  | nil => simp
  | cons b t ih => rw [List.foldl_cons, ih, List.sum_cons, add_assoc]

theorem weigh_pools {s : State K} (A : Finset Nat) (f : Pool K → K) (l : List (Nat × Ref)) :
    weigh (l.map (fun e => decide (e.1 ∈ A))) ((l.map (fun e => s.heap e.2)).map f) =
      (l.map (fun e => if e.1 ∈ A then f (s.heap e.2) else 0)).sum := by
  induction l with
  | nil => rfl
  | cons e t ih =>
    unfold weigh at ih ⊢
    simp only [List.map_cons, List.zip_cons_cons, List.sum_cons, ih, decide_eq_true_eq]

/-- every choice of pools, given by a list of zeros and ones, is one given by a set of ids -/
theorem choice_set : ∀ (l : List (Nat × Ref)), (l.map Prod.fst).Nodup → ∀ x : List Bool, x.length = l.length →
    ∃ A : Finset Nat, (∀ a ∈ A, a ∈ l.map Prod.fst) ∧ x = l.map (fun e => decide (e.1 ∈ A)) := by
  intro l
  induction l with
  | nil => intro _ x hx; exact ⟨∅, by simp, by simpa using hx⟩
  | cons e t ih =>
    intro hnd x hx
    cases x with
    | nil => cases hx
    | cons b x =>
      rw [List.map_cons, List.nodup_cons] at hnd
      obtain ⟨A, h1, h2⟩ := ih hnd.2 x (by simpa using hx)
      have hne : e.1 ∉ A := fun h => hnd.1 (h1 _ h)
      cases b with
      | false => exact ⟨A, fun a ha => by rw [List.map_cons]; exact List.mem_cons_of_mem _ (h1 a ha), by simp [h2, hne]⟩
      | true =>
        refine ⟨insert e.1 A, ?_, ?_⟩
        · intro a ha
          rw [List.map_cons]
          rcases Finset.mem_insert.1 ha with rfl | ha
          · exact List.mem_cons_self
          · exact List.mem_cons_of_mem _ (h1 a ha)
        · rw [List.map_cons, h2]
          congr 1
          · simp
          · apply List.map_congr_left
            intro e' he'
            have : e'.1 ≠ e.1 := fun h => hnd.1 (h ▸ List.mem_map.2 ⟨e', he', rfl⟩)
            simp [this]

/-- C92.  Without pools the minimum aggregate pledge is 0. -/
theorem C92_no_pools (solve : BinarySolver K) {s : State K} (h : s.pools = []) : minAggregatePledge solve s = 0 := by
  simp [minAggregatePledge, poolsList, h]

/-- C92.  With pools the metric is what the solver finds for their pledges, their stakes and half of the stake in pools, and -2 if it finds nothing. -/
theorem C92_solver (solve : BinarySolver K) {s : State K} (hne : s.pools ≠ []) :
    minAggregatePledge solve s =
      (solve (s.pools.map (fun e => (s.heap e.2).pledge)) (s.pools.map (fun e => (s.heap e.2).stake)) (inPools s / 2)).getD (-2) := by
  have hlen : ¬ (poolsList s).length = 0 := by simpa [poolsList] using hne
  unfold minAggregatePledge
  rw [if_neg hlen]
  simp only [foldl_add_sum, zero_add]
  have e1 : (poolsList s).map (fun p => p.pledge) = s.pools.map (fun e => (s.heap e.2).pledge) := by simp [poolsList, List.map_map]
  have e2 : (poolsList s).map (fun p => p.stake) = s.pools.map (fun e => (s.heap e.2).stake) := by simp [poolsList, List.map_map]
  have e3 : (s.pools.map (fun e => (s.heap e.2).stake)).sum = inPools s := rfl
  rw [e1, e2, e3]
  simp only [Nat.cast_ofNat]
  cases solve (s.pools.map (fun e => (s.heap e.2).pledge)) (s.pools.map (fun e => (s.heap e.2).stake)) (inPools s / 2) <;> rfl

/-- C92.  If the solver is exact, the metric is the least total pledge of a set of open pools that holds at least half of the stake in pools.  (So it never is
the -2 that stands for a failure of the solver.) -/
theorem C92_minimum {solve : BinarySolver K} (hs : Exact solve) {s : State K} (hnd : s.pools.keys.Nodup) (hst : ∀ e ∈ s.pools, 0 ≤ (s.heap e.2).stake)
    (hne : s.pools ≠ []) :
    IsLeast {v | ∃ A : Finset Nat, inPools s ≤ 2 * among s (fun p => p.stake) A ∧ v = among s (fun p => p.pledge) A} (minAggregatePledge solve s) := by
  have htot : ((poolsList s).map (fun p => p.stake)).foldl (· + ·) 0 / ((2 : Nat) : K) = inPools s / 2 := by
    rw [foldl_add_sum, zero_add, ← inPools_eq]; norm_cast
  have hset : feasibleValues ((poolsList s).map (fun p => p.pledge)) ((poolsList s).map (fun p => p.stake)) (inPools s / 2) =
      {v | ∃ A : Finset Nat, inPools s ≤ 2 * among s (fun p => p.stake) A ∧ v = among s (fun p => p.pledge) A} := by
    ext v
    constructor
    · rintro ⟨x, h1, h2, h3⟩
      obtain ⟨A, -, hA⟩ := choice_set s.pools hnd x (by simpa [poolsList] using h1)
      rw [hA] at h2 h3
      rw [poolsList, weigh_pools] at h2 h3
      exact ⟨A, by unfold among; linarith, h3⟩
    · rintro ⟨A, h1, h2⟩
      refine ⟨s.pools.map (fun e => decide (e.1 ∈ A)), by simp [poolsList], ?_, ?_⟩
      · rw [poolsList, weigh_pools]
        unfold among at h1
        linarith
      · rw [poolsList, weigh_pools]; exact h2
  have hfeas : {v | ∃ A : Finset Nat, inPools s ≤ 2 * among s (fun p => p.stake) A ∧ v = among s (fun p => p.pledge) A}.Nonempty := by
    refine ⟨_, (s.pools.map Prod.fst).toFinset, ?_, rfl⟩
    have h1 : among s (fun p => p.stake) (s.pools.map Prod.fst).toFinset = inPools s := by
      unfold among inPools
      congr 1
      apply List.map_congr_left
      intro e he
      rw [if_pos (List.mem_toFinset.2 (List.mem_map.2 ⟨e, he, rfl⟩))]
    have h2 : 0 ≤ inPools s := by
      refine List.sum_nonneg ?_
      intro x hx
      obtain ⟨e, he, rfl⟩ := List.mem_map.1 hx
      exact hst e he
    rw [h1]; linarith
  rw [← hset] at hfeas ⊢
  obtain ⟨v, h1, h2⟩ := hs ((poolsList s).map (fun p => p.pledge)) ((poolsList s).map (fun p => p.stake)) (inPools s / 2) (by simp) hfeas
  have : minAggregatePledge solve s = v := by
    unfold minAggregatePledge
    rw [if_neg (by simpa [poolsList] using hne)]
    simp only [htot, h1]
  rw [this]
  exact h2

theorem among_nonneg {s : State K} {f : Pool K → K} (h : ∀ e ∈ s.pools, 0 ≤ f (s.heap e.2)) (A : Finset Nat) : 0 ≤ among s f A := by
  refine List.sum_nonneg ?_
  intro x hx
  obtain ⟨e, he, rfl⟩ := List.mem_map.1 hx
  split
  · exact h e he
  · exact le_rfl

/-- C92.  In every state a simulation with positive stakes reaches (any activation, any phases), the metric is as described; with pools it is positive and at
most the total pledge. -/
theorem C92_reachable {solve : BinarySolver K} (hs : Exact solve) {c : Config K} {s : State K} (h : Reachable c s) (h0 : ∀ e ∈ c.people, 0 < e.1)
    (hb : 0 < c.rs.beta) (hne : s.pools ≠ []) :
    IsLeast {v | ∃ A : Finset Nat, inPools s ≤ 2 * among s (fun p => p.stake) A ∧ v = among s (fun p => p.pledge) A} (minAggregatePledge solve s) ∧
    0 < minAggregatePledge solve s ∧ minAggregatePledge solve s ≤ (s.pools.map (fun e => (s.heap e.2).pledge)).sum := by
  have hg := h.good minUnit_pos
  have hpool := C50_reachable h h0 hb
  have hpl : ∀ e ∈ s.pools, 0 < (s.heap e.2).pledge := fun e he => h.pledge_pos h0 hb (Dict.get?_of_mem hg.inv.core.poolsNodup he)
  have hmin := C92_minimum hs hg.inv.core.poolsNodup (fun e he => (hpool e he).le) hne
  have hpos : 0 < inPools s := List.sum_pos _ (by
    intro x hx; obtain ⟨e, he, rfl⟩ := List.mem_map.1 hx; exact hpool e he) (by simpa using hne)
  refine ⟨hmin, ?_, ?_⟩
  · obtain ⟨A, h1, h2⟩ := hmin.1
    rw [h2]
    refine lt_of_le_of_ne (among_nonneg (fun e he => (hpl e he).le) A) ?_
    intro hz
    -- no pledge chosen means no pool chosen, hence no stake
    have hno : ∀ e ∈ s.pools, e.1 ∉ A := by
      intro e he hA
      have h3 : (fun e : Nat × Ref => if e.1 ∈ A then (s.heap e.2).pledge else 0) e ≤ among s (fun p => p.pledge) A := by
        refine List.single_le_sum ?_ _ (List.mem_map.2 ⟨e, he, rfl⟩)
        intro x hx
        obtain ⟨e', he', rfl⟩ := List.mem_map.1 hx
        split
        · exact (hpl e' he').le
        · exact le_rfl
      rw [← hz] at h3
      simp only [if_pos hA] at h3
      exact absurd (hpl e he) (not_lt.2 h3)
    have h4 : among s (fun p => p.stake) A = 0 := by
      refine List.sum_eq_zero ?_
      intro x hx
      obtain ⟨e, he, rfl⟩ := List.mem_map.1 hx
      rw [if_neg (hno e he)]
    rw [h4] at h1
    linarith
  · refine hmin.2 ⟨(s.pools.map Prod.fst).toFinset, ?_, ?_⟩
    · have : among s (fun p => p.stake) (s.pools.map Prod.fst).toFinset = inPools s := by
        unfold among inPools
        congr 1
        apply List.map_congr_left
        intro e he
        rw [if_pos (List.mem_toFinset.2 (List.mem_map.2 ⟨e, he, rfl⟩))]
      rw [this]; linarith
    · unfold among
      congr 1
      apply List.map_congr_left
      intro e he
      rw [if_pos (List.mem_toFinset.2 (List.mem_map.2 ⟨e, he, rfl⟩))]

theorem sum_controls_finset (s : State K) (A : Finset Nat) :
    ∑ a ∈ A, controls s a = (s.pools.map (fun e => if (s.heap e.2).owner ∈ A then (s.heap e.2).stake else 0)).sum := by
  unfold controls
  induction s.pools with
  | nil => simp
  | cons e t ih => simp only [List.map_cons, List.sum_cons, Finset.sum_add_distrib, ih, Finset.sum_ite_eq]

/-- C92.  So it bounds from below what an attacker must own: agents whose pools together hold at least half of the stake in pools own at least the minimum
aggregate pledge (any activation, any phases). -/
theorem C92_attack {solve : BinarySolver K} (hs : Exact solve) {c : Config K} {s : State K} (h : Reachable c s) (h0 : ∀ e ∈ c.people, 0 < e.1)
    (hb : 0 < c.rs.beta) (hne : s.pools ≠ []) (A : Finset Nat) (hA : inPools s ≤ 2 * ∑ a ∈ A, controls s a) :
    minAggregatePledge solve s ≤ wealth s A := by
  have hg := h.good minUnit_pos
  have hnd := hg.inv.core.poolsNodup
  obtain ⟨hmin, -, -⟩ := C92_reachable hs h h0 hb hne
  have hch : ∀ f : Pool K → K, among s f ((s.pools.filter (fun e => decide ((s.heap e.2).owner ∈ A))).map Prod.fst).toFinset =
      (s.pools.map (fun e => if (s.heap e.2).owner ∈ A then f (s.heap e.2) else 0)).sum := by
    intro f
    unfold among
    congr 1
    apply List.map_congr_left
    intro e he
    by_cases ho : (s.heap e.2).owner ∈ A
    · rw [if_pos ho, if_pos]
      exact List.mem_toFinset.2 (List.mem_map.2 ⟨e, List.mem_filter.2 ⟨he, by simpa using ho⟩, rfl⟩)
    · rw [if_neg ho, if_neg]
      intro hm
      obtain ⟨e', he', heq⟩ := List.mem_map.1 (List.mem_toFinset.1 hm)
      obtain ⟨h1, h2⟩ := List.mem_filter.1 he'
      have e1 := Dict.get?_of_mem hnd he
      have e2 := Dict.get?_of_mem hnd h1
      rw [← heq, e2] at e1
      have : e'.2 = e.2 := by injection e1
      rw [this] at h2
      exact ho (by simpa using h2)
  refine (hmin.2 ⟨((s.pools.filter (fun e => decide ((s.heap e.2).owner ∈ A))).map Prod.fst).toFinset, ?_, rfl⟩).trans ?_
  · rw [hch, ← sum_controls_finset]; exact hA
  · rw [hch, sum_pools hg.inv (fun e => if (s.heap e.2).owner ∈ A then (s.heap e.2).pledge else 0)]
    refine sum_le_sum_map _ _ _ ?_
    rintro ⟨b, ag⟩ he
    have ha := Dict.get?_of_mem hg.inv.core.agentsNodup he
    have hown : ∀ e ∈ ownedOf ag, (s.heap e.2).owner = b := by
      rintro ⟨pid, r⟩ hm
      have h1 := Dict.get?_of_mem (d := ownedOf ag) (hg.inv.tidy _ _ ha).ownedOf hm
      rw [← ownOf_eq_ownedOf ha] at h1
      exact ((hg.inv.own.own_iff _ _ _).1 h1).2
    by_cases hbA : b ∈ A
    · rw [if_pos hbA]
      have : (ownedOf ag).map (fun e => if (s.heap e.2).owner ∈ A then (s.heap e.2).pledge else 0) = (ownedOf ag).map (fun e => (s.heap e.2).pledge) := by
        apply List.map_congr_left
        intro e he
        rw [hown e he, if_pos hbA]
      dsimp only
      rw [this]
      cases hσ : ag.strategy with
      | none =>
        simp only [ownedOf, hσ]
        have := hg.person ha
        exact (h0 _ (List.mem_of_getElem? this)).le
      | some σ =>
        simp only [ownedOf, hσ]
        exact C25_pledges h (fun e he => (h0 e he).le) hb ha hσ
    · rw [if_neg hbA]
      refine le_of_eq (List.sum_eq_zero ?_)
      intro x hx
      obtain ⟨e, he, rfl⟩ := List.mem_map.1 hx
      rw [hown e he, if_neg hbA]

/-- C92.  In particular there are as many agents as the Nakamoto coefficient says whose pools hold most of the stake in pools; they own at least the minimum
aggregate pledge. -/
theorem C92_nakamoto {solve : BinarySolver K} (hs : Exact solve) {c : Config K} {s : State K} (h : Reachable c s) (h0 : ∀ e ∈ c.people, 0 < e.1)
    (hb : 0 < c.rs.beta) (hne : s.pools ≠ []) :
    ∃ (n : Nat) (A : Finset Nat), nakamoto s = .ok n ∧ A.card = n ∧ inPools s < 2 * ∑ a ∈ A, controls s a ∧ minAggregatePledge solve s ≤ wealth s A := by
  have hpos : 0 < inPools s := List.sum_pos _ (by
    intro x hx; obtain ⟨e, he, rfl⟩ := List.mem_map.1 hx; exact C50_reachable h h0 hb e he) (by simpa using hne)
  obtain ⟨n, h1, -, -, ⟨A, -, h2, h3⟩, -⟩ := C47_nakamoto (owned_of_reachable h) hpos
  exact ⟨n, A, h1, h2, by linarith, C92_attack hs h h0 hb hne A (by linarith)⟩

/-! ### An exact solver: trying all points -/

/-- all lists of zeros and ones of a length -/
def points : Nat → List (List Bool)
  | 0 => [[]]
  | n + 1 => (points n).flatMap (fun x => [false :: x, true :: x])

theorem mem_points {n : Nat} {x : List Bool} : x ∈ points n ↔ x.length = n := by
  induction n generalizing x with
  | zero => simp [points]
  | succ n ih =>
    simp only [points, List.mem_flatMap, List.mem_cons, List.not_mem_nil, or_false]
    constructor
    · rintro ⟨y, hy, rfl | rfl⟩ <;> simp [ih.1 hy]
    · intro hx
      cases x with
      | nil => cases hx
      | cons b y =>
        refine ⟨y, ih.2 (by simpa using hx), ?_⟩
        cases b <;> simp

/-- the least value of the objective in all feasible points -/
def tryAll (p w : List K) (b : K) : Option K := (((points p.length).filter (fun x => decide (b ≤ weigh x w))).map (fun x => weigh x p)).min?

theorem tryAll_exact : Exact (tryAll (K := K)) := by
  intro p w b _ hne
  have hmem : ∀ v, v ∈ ((points p.length).filter (fun x => decide (b ≤ weigh x w))).map (fun x => weigh x p) ↔ v ∈ feasibleValues p w b := by
    intro v
    simp only [List.mem_map, List.mem_filter, mem_points, decide_eq_true_eq, feasibleValues, Set.mem_ofPred_eq]
    constructor
    · rintro ⟨x, ⟨h1, h2⟩, h3⟩; exact ⟨x, h1, h2, h3.symm⟩
    · rintro ⟨x, h1, h2, h3⟩; exact ⟨x, ⟨h1, h2⟩, h3.symm⟩
  obtain ⟨v0, hv0⟩ := hne
  cases hm : tryAll p w b with
  | none =>
    rw [tryAll, List.min?_eq_none_iff] at hm
    rw [← hmem, hm] at hv0; cases hv0
  | some v =>
    refine ⟨v, rfl, ?_⟩
    rw [tryAll, List.min?_eq_some_iff] at hm
    exact ⟨(hmem v).1 hm.1, fun y hy => hm.2 y ((hmem y).2 hy)⟩

/-- the hypotheses hold of an exact solver and of a state with three pools; the minimum aggregate pledge is that of the pools of agents 0 and 1 -/
example : Exact (tryAll (K := ℚ)) ∧ ∃ s, Reachable (demo false) s ∧ (∀ e ∈ (demo false).people, 0 < e.1) ∧ 0 < (demo false).rs.beta ∧ s.pools ≠ [] ∧
    s.pools.map (fun e => (e.1, (s.heap e.2).owner, (s.heap e.2).pledge, (s.heap e.2).stake)) = [(1, 0, 1/5, 1/3), (4, 1, 1/10, 7/30), (8, 3, 3/10, 1/3)] ∧
    minAggregatePledge tryAll s = 3/10 := by
  obtain ⟨s, ⟨es, h1, h2⟩, h3⟩ := reachable_of_run demoRounds_valid (f := fun s =>
      (s.pools.map (fun e => (e.1, (s.heap e.2).owner, (s.heap e.2).pledge, (s.heap e.2).stake)), minAggregatePledge tryAll s))
    (v := ([(1, 0, 1/5, 1/3), (4, 1, 1/10, 7/30), (8, 3, 3/10, 1/3)], 3/10)) (by decide +kernel)
  simp only [Prod.mk.injEq] at h3
  refine ⟨tryAll_exact, s, ⟨es, fun e he => (h1 e he).1, h2⟩, demo_stakes _, by decide +kernel, ?_, h3.1, h3.2⟩
  intro h; rw [h] at h3; cases h3.1

end RSE.Props
