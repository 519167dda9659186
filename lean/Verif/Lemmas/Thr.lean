import Verif.Lemmas.Twin
import Verif.Props.Derived

/-!
# The thresholds for changing a strategy enter a plan only in the final comparison
-/

set_option linter.unusedSectionVars false

namespace RSE

section
variable {F : Type} [LinearOrder F] [Zero F] [One F] [Add F] [Sub F] [Mul F] [Div F] [Neg F] [NatCast F] [FSum F]

/-- the same state with other thresholds -/
def State.thr (s : State F) (r a : F) : State F := { s with relThr := r, absThr := a }

/-- the same result with other thresholds in its state -/
def thrRes {α : Type} (r a : F) (x : Py (State F × α)) : Py (State F × α) := x.map (fun o => (o.1.thr r a, o.2))

theorem currentUtility_thr (s : State F) (r a : F) (σ : Strategy F) : currentUtility (s.thr r a) σ = currentUtility s σ := rfl

theorem expectedUtility_thr (s : State F) (r a : F) (me : Agent F) (σ τ : Strategy F) :
    expectedUtility (s.thr r a) me σ τ = expectedUtility s me σ τ := rfl

theorem setDelegation_thr (s : State F) (r a : F) (pid : Nat) (x : F) (b : Nat) :
    setDelegation (s.thr r a) pid x b = (setDelegation s pid x b).map (fun t => t.thr r a) := by
  unfold setDelegation
  cases h1 : s.pools.getE pid with
  | error e =>
    have : (s.thr r a).pools.getE pid = .error e := h1
    rw [this]; rfl
  | ok q =>
    have : (s.thr r a).pools.getE pid = .ok q := h1
    rw [this]
    simp only [bind, Except.bind]
    cases h2 : s.rankM.remove (poolKeyM s.rs (s.heap q)) (some q) with
    | error e =>
      have : (s.thr r a).rankM.remove (poolKeyM (s.thr r a).rs ((s.thr r a).heap q)) (some q) = .error e := h2
      rw [this]; rfl
    | ok l =>
      have : (s.thr r a).rankM.remove (poolKeyM (s.thr r a).rs ((s.thr r a).heap q)) (some q) = .ok l := h2
      rw [this]; rfl

theorem setDelegations_thr (r a : F) (b : Nat) : ∀ (l : List (Nat × F)) (s : State F),
    setDelegations (s.thr r a) b l = (setDelegations s b l).map (fun t => t.thr r a)
  | [], s => rfl
  | (pid, x) :: t, s => by
    unfold setDelegations
    rw [setDelegation_thr]
    cases setDelegation s pid x b with
    | error e => rfl
    | ok s₁ => exact setDelegations_thr r a b t s₁

theorem findDelegationMove_thr (s : State F) (r a : F) (me : Agent F) (σ : Strategy F) (stake : F) :
    findDelegationMove (s.thr r a) me σ stake = thrRes r a (findDelegationMove s me σ stake) := by
  unfold findDelegationMove
  by_cases h : stake < minUnit
  · rw [if_pos h, if_pos h]; rfl
  · rw [if_neg h, if_neg h]
    have hd : determineStakeAllocations (s.thr r a) me σ stake = thrRes r a (determineStakeAllocations s me σ stake) := by
      unfold determineStakeAllocations
      have hel : eligiblePools (s.thr r a) me = eligiblePools s me := rfl
      rw [hel]
      by_cases h0 : (eligiblePools s me).length = 0
      · rw [if_pos h0, if_pos h0]; rfl
      · rw [if_neg h0, if_neg h0]
        simp only [setDelegations_thr]
        cases setDelegations s me.id (σ.allocs.map (fun e => (e.1, 0))) with
        | error e => rfl
        | ok s₁ =>
          simp only [Except.map, bind, Except.bind, setDelegations_thr]
          cases setDelegations s₁ me.id σ.allocs with
          | error e => rfl
          | ok s₂ => rfl
    simp only
    rw [hd]
    cases determineStakeAllocations s me σ stake with
    | error e => rfl
    | ok o => rfl

theorem copyPools_thr (r a : F) : ∀ (l : List (Nat × Ref)) (s : State F),
    copyPools (s.thr r a) l = ((copyPools s l).1.thr r a, (copyPools s l).2)
  | [], s => rfl
  | (pid, q) :: t, s => by
    have h := copyPools_thr r a t (s.alloc (s.heap q))
    unfold copyPools
    have h2 : (s.thr r a).alloc ((s.thr r a).heap q) = (s.alloc (s.heap q)).thr r a := rfl
    simp only [h2, h]
    rfl

theorem determinePoolsToKeep_thr (ord : List Nat → List Nat) (s : State F) (r a : F) (σ : Strategy F) (n : Nat) :
    determinePoolsToKeep ord (s.thr r a) σ n = thrRes r a (determinePoolsToKeep ord s σ n) := by
  unfold determinePoolsToKeep
  by_cases h : n < σ.owned.length
  · rw [if_pos h, if_pos h]
    simp only [copyPools_thr]
    have h2 : (s.thr r a).heap = s.heap := rfl
    rw [h2]
    cases (ord (topPoolIds s.heap σ.owned n)).mapM (fun pid => (do
      let r ← σ.owned.getE pid
      return (pid, r) : Py (Nat × Ref))) with
    | error e => rfl
    | ok es => rfl
  · rw [if_neg h, if_neg h]
    simp only [copyPools_thr]
    rfl

theorem reworkPools_thr (r a : F) (me : Agent F) (pledge cost : F) (margins : List F) : ∀ (l : List (Nat × Ref)) (i : Nat) (s : State F),
    reworkPools me pledge cost margins (s.thr r a) i l = (reworkPools me pledge cost margins s i l).map (fun t => t.thr r a)
  | [], _, s => rfl
  | (pid, q) :: t, i, s => by
    unfold reworkPools
    have h1 : ∀ p, marginAt (s.thr r a) me margins i p = marginAt s me margins i p := fun _ => rfl
    have h2 : reworkPool (s.thr r a).rs pledge cost ((s.thr r a).heap q) = reworkPool s.rs pledge cost (s.heap q) := rfl
    simp only [h1, h2]
    cases marginAt s me margins i (reworkPool s.rs pledge cost (s.heap q)) with
    | error e => rfl
    | ok m => exact reworkPools_thr r a me pledge cost margins t (i + 1) (s.setPool q ((reworkPool s.rs pledge cost (s.heap q)).setMargin m))

theorem draftPools_thr (r a : F) (me : Agent F) (pledge cost : F) (margins : List F) : ∀ (cnt : Nat) (s : State F) (i : Nat) (owned : Dict Ref),
    draftPools me pledge cost margins cnt (s.thr r a) i owned = thrRes r a (draftPools me pledge cost margins cnt s i owned)
  | 0, s, i, owned => rfl
  | cnt + 1, s, i, owned => by
    unfold draftPools
    have h1 : ∀ p, marginAt { s.thr r a with idSeq := (s.thr r a).idSeq + 1 } me margins i p = marginAt { s with idSeq := s.idSeq + 1 } me margins i p :=
      fun _ => rfl
    simp only [h1]
    change (marginAt { s with idSeq := s.idSeq + 1 } me margins i (Pool.create (s.idSeq + 1) cost pledge me.id s.rs (decide (pledge ≥ s.rs.sat pledge))) >>= _) =
      thrRes r a (marginAt { s with idSeq := s.idSeq + 1 } me margins i (Pool.create (s.idSeq + 1) cost pledge me.id s.rs (decide (pledge ≥ s.rs.sat pledge))) >>= _)
    cases marginAt { s with idSeq := s.idSeq + 1 } me margins i (Pool.create (s.idSeq + 1) cost pledge me.id s.rs (decide (pledge ≥ s.rs.sat pledge))) with
    | error e => rfl
    | ok m =>
      exact draftPools_thr r a me pledge cost margins cnt
        ({ s with idSeq := s.idSeq + 1 }.alloc ((Pool.create (s.idSeq + 1) cost pledge me.id s.rs (decide (pledge ≥ s.rs.sat pledge))).setMargin m))
        (i + 1) (owned.set (s.idSeq + 1) s.next)

theorem findOperatorMove_thr (s : State F) (r a : F) (me : Agent F) (σ : Strategy F) (n : Nat) (owned : Dict Ref) (margins : List F) :
    findOperatorMove (s.thr r a) me σ n owned margins = thrRes r a (findOperatorMove s me σ n owned margins) := by
  unfold findOperatorMove
  have h1 : (s.thr r a).rs.beta = s.rs.beta := rfl
  have h2 : (s.thr r a).extraFrac = s.extraFrac := rfl
  rw [h1, h2]
  cases pledgePerPool me.stake s.rs.beta n with
  | error e => rfl
  | ok pledge =>
    cases costPerPool n me.cost s.extraFrac with
    | error e => rfl
    | ok cost =>
      simp only [bind, Except.bind, reworkPools_thr]
      cases reworkPools me pledge cost margins s 0 owned with
      | error e => rfl
      | ok s₁ =>
        simp only [Except.map, draftPools_thr]
        cases draftPools me pledge cost margins (n - owned.length) s₁ owned.length owned with
        | error e => rfl
        | ok o =>
          simp only [thrRes, Except.map]
          split
          · simp only [findDelegationMove_thr]
            cases findDelegationMove o.1 me σ (me.stake - pledge * (n : F)) with
            | error e => rfl
            | ok o' => rfl
          · rfl

theorem choosePoolStrategy_thr (ord : List Nat → List Nat) (s : State F) (r a : F) (me : Agent F) (σ : Strategy F) :
    choosePoolStrategy ord (s.thr r a) me σ = thrRes r a (choosePoolStrategy ord s me σ) := by
  unfold choosePoolStrategy
  have h1 : marginsAndUtility (s.thr r a) me σ = marginsAndUtility s me σ := rfl
  have h2 : (s.thr r a).rs = s.rs := rfl
  rw [h1, h2]
  cases searchPools (marginsAndUtility s me σ) (s.rs.k + 1) 1 s.rs.k with
  | error e => rfl
  | ok o =>
    obtain ⟨n, margins⟩ := o
    simp only [bind, Except.bind, determinePoolsToKeep_thr]
    cases determinePoolsToKeep ord s σ n with
    | error e => rfl
    | ok o =>
      simp only [thrRes, Except.map, findOperatorMove_thr]
      cases findOperatorMove o.1 me σ n o.2 margins with
      | error e => rfl
      | ok o' =>
        simp only [expectedUtility_thr]
        cases expectedUtility o'.1 me σ o'.2 with
        | error e => rfl
        | ok u => rfl

/-- planning, with the final comparison left open: the state, the utilities (current, expected, as a delegator, as an operator) and the candidates -/
def options (ord : List Nat → List Nat) (s : State F) (me : Agent F) (σ : Strategy F) :
    Py (State F × (F × F × F × F × Strategy F × Strategy F)) := do
  let cur ← currentUtility s σ
  let exp ← expectedUtility s me σ σ
  let (s, δ) ← findDelegationMove s me σ me.stake
  let du ← expectedUtility s me σ δ
  let (s, ou, ω) ← choosePoolStrategy ord s me σ
  return (s, cur, exp, du, ou, δ, ω)

theorem options_thr (ord : List Nat → List Nat) (s : State F) (r a : F) (me : Agent F) (σ : Strategy F) :
    options ord (s.thr r a) me σ = thrRes r a (options ord s me σ) := by
  unfold options
  simp only [currentUtility_thr, expectedUtility_thr, findDelegationMove_thr]
  cases currentUtility s σ with
  | error e => rfl
  | ok cur =>
    cases expectedUtility s me σ σ with
    | error e => rfl
    | ok exp =>
      cases findDelegationMove s me σ me.stake with
      | error e => rfl
      | ok o =>
        simp only [bind, Except.bind, thrRes, Except.map, expectedUtility_thr, choosePoolStrategy_thr]
        cases expectedUtility o.1 me σ o.2 with
        | error e => rfl
        | ok du =>
          cases choosePoolStrategy ord o.1 me σ with
          | error e => rfl
          | ok o' => rfl

/-- the decision at the end of planning -/
def decideMove (rel abs : F) : F × F × F × F × Strategy F × Strategy F → Option (Strategy F)
  | (cur, exp, du, ou, δ, ω) => match pickMove (augmented rel abs cur exp) du ou with
    | .current => none
    | .delegator => some δ
    | .operator => some ω

theorem planMove_options (ord : List Nat → List Nat) (s : State F) (me : Agent F) (σ : Strategy F) :
    planMove ord s me σ = (options ord s me σ).map (fun o => (o.1, decideMove s.relThr s.absThr o.2)) := by
  unfold planMove options
  cases currentUtility s σ with
  | error e => rfl
  | ok cur =>
    cases expectedUtility s me σ σ with
    | error e => rfl
    | ok exp =>
      simp only [bind, Except.bind]
      cases findDelegationMove s me σ me.stake with
      | error e => rfl
      | ok o =>
        simp only
        cases expectedUtility o.1 me σ o.2 with
        | error e => rfl
        | ok du =>
          simp only
          cases choosePoolStrategy ord o.1 me σ with
          | error e => rfl
          | ok o' => rfl

/-- An agent plans the same with all thresholds, up to the decision. -/
theorem planMove_thr (ord : List Nat → List Nat) (s : State F) (r a : F) (me : Agent F) (σ : Strategy F) :
    planMove ord (s.thr r a) me σ = (options ord s me σ).map (fun o => (o.1.thr r a, decideMove r a o.2)) := by
  rw [planMove_options, options_thr]
  cases options ord s me σ with
  | error e => rfl
  | ok o => rfl

theorem pickMove_current {c d o : F} : pickMove c d o = .current ↔ d ≤ c ∧ o ≤ c := by
  unfold pickMove
  by_cases h : d > c
  · simp only [if_pos h]
    by_cases h2 : o > d
    · simp [if_pos h2, not_le.2 h]
    · simp [if_neg h2, not_le.2 h]
  · simp only [if_neg h]
    by_cases h2 : o > c
    · simp [if_pos h2, not_le.2 h2]
    · simp [if_neg h2, not_lt.1 h2, not_lt.1 h]

theorem decideMove_none {rel abs : F} {cur exp du ou : F} {δ ω : Strategy F} :
    decideMove rel abs (cur, exp, du, ou, δ, ω) = none ↔ du ≤ augmented rel abs cur exp ∧ ou ≤ augmented rel abs cur exp := by
  rw [← pickMove_current]
  unfold decideMove
  cases h : pickMove (augmented rel abs cur exp) du ou <;> simp [h]

end

variable {K : Type} [Field K] [LinearOrder K] [IsStrictOrderedRing K]

theorem augmented_mono {r r' a a' : K} (h0 : 0 ≤ r) (hr : r ≤ r') (ha0 : 0 ≤ a) (ha : a ≤ a') (cur exp : K) :
    augmented r a cur exp ≤ augmented r' a' cur exp := by
  have key : ∀ u : K, max ((1 + r) * u) (u + a) ≤ max ((1 + r') * u) (u + a') := by
    intro u
    refine max_le ?_ ((add_le_add_right ha u).trans (le_max_right _ _))
    rcases le_total 0 u with hu | hu
    · exact (mul_le_mul_of_nonneg_right (by linarith) hu).trans (le_max_left _ _)
    · refine le_trans ?_ (le_max_right _ _)
      nlinarith [mul_nonneg h0 (neg_nonneg.2 hu)]
  unfold augmented
  have h1 := key cur
  have h2 := key exp
  refine max_le (max_le (h1.trans ?_) ?_) ?_
  · exact max_le ((le_max_left _ _).trans ((le_max_left _ _).trans (le_max_left _ _))) ((le_max_right _ _).trans ((le_max_left _ _).trans (le_max_left _ _)))
  · exact (le_max_left _ _).trans (h2.trans (max_le ((le_max_right _ _).trans (le_max_left _ _)) (le_max_right _ _)))
  · exact (le_max_right _ _).trans (h2.trans (max_le ((le_max_right _ _).trans (le_max_left _ _)) (le_max_right _ _)))

theorem decideMove_mono {r r' a a' : K} (h0 : 0 ≤ r) (hr : r ≤ r') (ha0 : 0 ≤ a) (ha : a ≤ a') {o : K × K × K × K × Strategy K × Strategy K}
    (h : decideMove r a o = none) : decideMove r' a' o = none := by
  obtain ⟨cur, exp, du, ou, δ, ω⟩ := o
  rw [decideMove_none] at h ⊢
  have := augmented_mono h0 hr ha0 ha cur exp
  exact ⟨h.1.trans this, h.2.trans this⟩

/-- different entries of the ranking have different keys -/
theorem Core.rank_unique {n : Nat} {s : State K} (h : Core n s) : ∀ e ∈ s.rank, ∀ e' ∈ s.rank, e.1 = e'.1 → e = e' := by
  have key : ∀ e ∈ s.rank, (e = (noneKey, none)) ∨ ∃ pid r, s.pools.get? pid = some r ∧ e = (poolKey (s.heap r), some r) := by
    intro e he
    rw [h.rankPerm.mem_iff] at he
    rcases List.mem_append.1 he with he | he
    · exact Or.inl (List.eq_of_mem_replicate he)
    · obtain ⟨⟨pid, r⟩, hm, rfl⟩ := List.mem_map.1 he
      exact Or.inr ⟨pid, r, Dict.get?_of_mem h.poolsNodup hm, rfl⟩
  have hkey : ∀ {x y x' y' : K} {i i' : Nat}, (toLex (x, toLex (y, i)) : Key K) = toLex (x', toLex (y', i')) → i = i' := by
    intro x y x' y' i i' hk
    exact (Prod.mk.inj (toLex_inj.1 (Prod.mk.inj (toLex_inj.1 hk)).2)).2
  intro e he e' he' hee
  rcases key e he with h1 | ⟨pid, r, hp, h1⟩ <;> rcases key e' he' with h2 | ⟨pid', r', hp', h2⟩ <;> subst h1 <;> subst h2
  · rfl
  · exfalso
    have := hkey hee
    have h3 := h.poolRef _ _ hp'
    omega
  · exfalso
    have := hkey hee
    have h3 := h.poolRef _ _ hp
    omega
  · have h1 := hkey hee
    rw [(h.poolRef _ _ hp).2.1, (h.poolRef _ _ hp').2.1] at h1
    subst h1
    rw [hp] at hp'
    cases hp'
    rfl

/-- A change of phase that keeps the reward scheme does not touch pools whose figures are up to date. -/
theorem changePhase_same {n : Nat} {s : State K} (h : Core n s) (p : PhaseParams K) (hk : p.k ≠ some 0) (hrs : phaseRS s.rs p = s.rs)
    (hcur : ∀ pid r, s.pools.get? pid = some r → (s.heap r).reeval s.rs = s.heap r) :
    changePhase s p = .ok { s with relThr := p.relThr.getD s.relThr, absThr := p.absThr.getD s.absThr, extraFrac := p.extraFrac.getD s.extraFrac } := by
  obtain ⟨l, lm, h1, h2, h3, h4, h5⟩ := unrankAll s.pools s h.rankSorted h.rankMSorted h.rankPerm h.rankMPerm
  unfold changePhase
  change Except.bind (iterM unrank s (s.pools.map Prod.snd)) _ = _
  rw [h1, Except.bind, applyPhase_ok hk]
  set s₁ : State K := { s with rank := l, rankM := lm, rs := phaseRS s.rs p, relThr := p.relThr.getD s.relThr, absThr := p.absThr.getD s.absThr, extraFrac := p.extraFrac.getD s.extraFrac } with hs1
  obtain ⟨hp, l', lm', k1, k2, k3, k4, k5, k6⟩ := rerankAll (n := n) s.pools [] s₁ h2 h3 (by simpa [Dict.vals] using h.valsNodup)
    (by simpa [rankEntries] using h4) (by simpa [rankEntries] using h5)
  change iterM rerank s₁ (s.pools.map Prod.snd) = _
  rw [k1]
  have hheap : hp = s.heap := by
    funext r
    rw [k4 r]
    split
    · rename_i hm
      obtain ⟨pid, hpr⟩ := (mem_vals_iff h).1 hm
      change (s.heap r).reeval (phaseRS s.rs p) = s.heap r
      rw [hrs]; exact hcur pid r hpr
    · rfl
  subst hheap
  have hl : s.rank = l' := SKL.eq_of_perm h.rankSorted k2 (h.rankPerm.trans (by simpa using k5.symm)) h.rank_unique
  have hlm : s.rankM = lm' := by
    refine SKL.eq_of_perm h.rankMSorted k3 (h.rankMPerm.trans ?_) h.rankM_unique
    have : s₁.rs = s.rs := hrs
    rw [this] at k6
    simpa using k6.symm
  rw [← hl, ← hlm, hs1]
  simp only [hrs]

end RSE
