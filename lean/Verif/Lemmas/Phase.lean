import Verif.Lemmas.Step

/-!
# A change of phase
-/

set_option linter.unusedSectionVars false

namespace RSE

variable {F : Type} [LinearOrder F] [Zero F] [One F] [Add F] [Sub F] [Mul F] [Div F] [Neg F] [NatCast F] [FSum F]

/-- a pool after `set_profit` and `set_desirability` under the scheme `rs` -/
def Pool.reeval (rs : RS F) (p : Pool F) : Pool F := (p.setProfit rs).setDesirability

theorem unrankAll {n : Nat} (todo : List (Nat × Ref)) (s : State F) (h1 : s.rank.Sorted) (h2 : s.rankM.Sorted)
    (p1 : s.rank.Perm (rankEntries n noneKey poolKey todo s.heap))
    (p2 : s.rankM.Perm (rankEntries n noneKeyM (poolKeyM s.rs) todo s.heap)) :
    ∃ l lm, iterM unrank s (todo.map Prod.snd) = .ok { s with rank := l, rankM := lm } ∧ l.Sorted ∧ lm.Sorted ∧
      l.Perm (List.replicate n (noneKey, none)) ∧ lm.Perm (List.replicate n (noneKeyM, none)) := by
  induction todo generalizing s with
  | nil => exact ⟨s.rank, s.rankM, rfl, h1, h2, by simpa [rankEntries] using p1, by simpa [rankEntries] using p2⟩
  | cons e t ih =>
    have hm1 : (poolKey (s.heap e.2), some e.2) ∈ s.rank := by
      rw [p1.mem_iff]; simp [rankEntries]
    have hm2 : (poolKeyM s.rs (s.heap e.2), some e.2) ∈ s.rankM := by
      rw [p2.mem_iff]; simp [rankEntries]
    obtain ⟨l', r1, r2, r3⟩ := SKL.remove_ok h1 hm1
    obtain ⟨lm', q1, q2, q3⟩ := SKL.remove_ok h2 hm2
    have p1' : l'.Perm (rankEntries n noneKey poolKey t s.heap) :=
      (r2.symm.trans (perm_append_cons p1 (List.Perm.refl _))).cons_inv
    have p2' : lm'.Perm (rankEntries n noneKeyM (poolKeyM s.rs) t s.heap) :=
      (q2.symm.trans (perm_append_cons p2 (List.Perm.refl _))).cons_inv
    obtain ⟨l, lm, k1, k2⟩ := ih { s with rank := l', rankM := lm' } r3 q3 p1' p2'
    refine ⟨l, lm, ?_, k2⟩
    simp only [List.map_cons, iterM]
    have hu : unrank s e.2 = .ok { s with rank := l', rankM := lm' } := by
      unfold unrank; rw [r1, q1]; rfl
    rw [hu]; exact k1

theorem rerankAll {n : Nat} (todo don : List (Nat × Ref)) (s : State F) (h1 : s.rank.Sorted) (h2 : s.rankM.Sorted)
    (hnd : ((don ++ todo).map Prod.snd).Nodup)
    (p1 : s.rank.Perm (rankEntries n noneKey poolKey don s.heap))
    (p2 : s.rankM.Perm (rankEntries n noneKeyM (poolKeyM s.rs) don s.heap)) :
    ∃ hp l lm, iterM rerank s (todo.map Prod.snd) = .ok { s with heap := hp, rank := l, rankM := lm } ∧ l.Sorted ∧ lm.Sorted ∧
      (∀ r, hp r = if r ∈ todo.map Prod.snd then (s.heap r).reeval s.rs else s.heap r) ∧
      l.Perm (rankEntries n noneKey poolKey (don ++ todo) hp) ∧ lm.Perm (rankEntries n noneKeyM (poolKeyM s.rs) (don ++ todo) hp) := by
  induction todo generalizing s don with
  | nil => exact ⟨s.heap, s.rank, s.rankM, rfl, h1, h2, by simp, by simpa using p1, by simpa using p2⟩
  | cons e t ih =>
    set p := (s.heap e.2).reeval s.rs with hp
    set hp1 := Function.update s.heap e.2 p with hhp1
    have hne : ∀ x ∈ don, hp1 x.2 = s.heap x.2 := by
      intro x hx
      rw [hhp1, Function.update_of_ne]
      intro hxe
      rw [List.map_append, List.nodup_append] at hnd
      exact hnd.2.2 x.2 (List.mem_map_of_mem hx) e.2 (by simp) hxe
    have hent : ∀ {κ : Type} (nk : κ) (key : Pool F → κ), (rankEntries n nk key (don ++ [e]) hp1).Perm
        ((key p, some e.2) :: rankEntries n nk key don s.heap) := by
      intro κ nk key
      unfold rankEntries
      rw [List.map_append]
      have : don.map (fun x => (key (hp1 x.2), some x.2)) = don.map (fun x => (key (s.heap x.2), some x.2)) := by
        apply List.map_congr_left; intro x hx; rw [hne x hx]
      rw [this]
      simp only [List.map_cons, List.map_nil, hhp1, Function.update_self]
      rw [← List.append_assoc]
      exact (List.perm_append_comm).trans (by simp)
    have hr : rerank s e.2 = .ok { s with heap := hp1, rank := s.rank.add (poolKey p) (some e.2), rankM := s.rankM.add (poolKeyM s.rs p) (some e.2) } := by
      unfold rerank; rfl
    obtain ⟨hp', l, lm, k1, k2, k3, k4, k5, k6⟩ := ih (don ++ [e])
      { s with heap := hp1, rank := s.rank.add (poolKey p) (some e.2), rankM := s.rankM.add (poolKeyM s.rs p) (some e.2) }
      (SKL.sorted_add h1 _ _) (SKL.sorted_add h2 _ _) (by simpa using hnd)
      ((SKL.add_perm _ _ _).trans ((p1.cons _).trans (hent noneKey poolKey).symm))
      ((SKL.add_perm _ _ _).trans ((p2.cons _).trans (hent noneKeyM (poolKeyM s.rs)).symm))
    refine ⟨hp', l, lm, ?_, k2, k3, ?_, by simpa using k5, by simpa using k6⟩
    · simp only [List.map_cons, iterM]; rw [hr]; exact k1
    · intro r
      rw [k4 r]
      have het : e.2 ∉ t.map Prod.snd := by
        rw [List.map_append, List.nodup_append] at hnd
        have := hnd.2.1
        rw [List.map_cons, List.nodup_cons] at this
        exact this.1
      by_cases hre : r = e.2
      · subst hre
        rw [if_neg het]; simp [hhp1, hp]
      · simp only [List.map_cons, List.mem_cons, hre, false_or, hhp1, Function.update_of_ne hre]

theorem Core.valsNodup {n : Nat} {s : State F} (h : Core n s) : s.pools.vals.Nodup := by
  have : s.pools.vals.map (fun r => (s.heap r).id) = s.pools.keys := by
    unfold Dict.vals Dict.keys
    rw [List.map_map]
    apply List.map_congr_left
    rintro ⟨pid, r⟩ he
    exact (h.poolRef _ _ (Dict.get?_of_mem h.poolsNodup he)).2.1
  exact List.Nodup.of_map _ (by rw [this]; exact h.poolsNodup)

theorem mem_vals_iff {n : Nat} {s : State F} (h : Core n s) {r : Ref} : r ∈ s.pools.vals ↔ ∃ pid, s.pools.get? pid = some r := by
  unfold Dict.vals
  rw [List.mem_map]
  constructor
  · rintro ⟨⟨pid, r'⟩, he, rfl⟩; exact ⟨pid, Dict.get?_of_mem h.poolsNodup he⟩
  · rintro ⟨pid, hp⟩; exact ⟨_, Dict.mem_of_get? hp, rfl⟩

/-- the parameters after `applyPhase` -/
structure Phased (s s' : State F) : Prop where
  agents : s'.agents = s.agents
  pools : s'.pools = s.pools
  idSeq : s'.idSeq = s.idSeq
  next : s'.next = s.next
  simultaneous : s'.simultaneous = s.simultaneous
  totalStake : s'.totalStake = s.totalStake
  idle : s'.idle = s.idle
  heap : ∀ r, s'.heap r = if r ∈ s.pools.vals then (s.heap r).reeval s'.rs else s.heap r

/-- the reward scheme of a phase: the given values replace the old ones, a new `k` also sets the saturation threshold -/
def phaseRS (rs : RS F) (p : PhaseParams F) : RS F :=
  let rs := match p.k with
    | some k => { rs with k := k, beta := 1 / (k : F) }
    | none => rs
  match p.a0 with
    | some a => { rs with a0 := a }
    | none => rs

theorem applyPhase_zero {s : State F} {p : PhaseParams F} (h : p.k = some 0) : applyPhase s p = .error .value := by
  unfold applyPhase
  rw [h]
  rfl

theorem applyPhase_ok {s : State F} {p : PhaseParams F} (h : p.k ≠ some 0) : applyPhase s p = .ok { s with
    rs := phaseRS s.rs p, relThr := p.relThr.getD s.relThr, absThr := p.absThr.getD s.absThr, extraFrac := p.extraFrac.getD s.extraFrac } := by
  unfold applyPhase phaseRS
  cases hk : p.k with
  | none => rfl
  | some k =>
    have hk0 : k ≠ 0 := by rintro rfl; exact h hk
    simp only [RS.setK, hk0, if_false]
    rfl

theorem changePhase_spec {n : Nat} {s : State F} (h : Core n s) (p : PhaseParams F) :
    Sat (fun e => e = .value ∧ p.k = some 0) (changePhase s p) (fun s' => Core n s' ∧ Phased s s' ∧ s'.rs = phaseRS s.rs p ∧ p.k ≠ some 0) := by
  obtain ⟨l, lm, h1, h2, h3, h4, h5⟩ := unrankAll s.pools s h.rankSorted h.rankMSorted h.rankPerm h.rankMPerm
  unfold changePhase
  change Sat _ (Except.bind (iterM unrank s (s.pools.map Prod.snd)) _) _
  rw [h1]
  by_cases hk : p.k = some 0
  · rw [Except.bind, applyPhase_zero hk]
    exact ⟨rfl, hk⟩
  · rw [Except.bind, applyPhase_ok hk]
    set s₁ : State F := { s with rank := l, rankM := lm, rs := phaseRS s.rs p, relThr := p.relThr.getD s.relThr, absThr := p.absThr.getD s.absThr, extraFrac := p.extraFrac.getD s.extraFrac } with hs1
    obtain ⟨hp, l', lm', k1, k2, k3, k4, k5, k6⟩ := rerankAll (n := n) s.pools [] s₁ h2 h3 (by simpa [Dict.vals] using h.valsNodup)
      (by simpa [rankEntries] using h4) (by simpa [rankEntries] using h5)
    change Sat _ (iterM rerank s₁ (s.pools.map Prod.snd)) _
    rw [k1]
    have hpid : ∀ r, (hp r).id = (s.heap r).id := by intro r; rw [k4 r]; split <;> rfl
    have hpdel : ∀ r, (hp r).delegators = (s.heap r).delegators := by intro r; rw [k4 r]; split <;> rfl
    refine ⟨⟨h.agentsNodup, h.agentId, h.poolsNodup, ?_, k2, by simpa using k5, k3, by simpa using k6, ?_⟩, ⟨rfl, rfl, rfl, rfl, rfl, rfl, rfl, k4⟩, rfl, hk⟩
    · intro pid r hpr
      have := h.poolRef pid r hpr
      exact ⟨this.1, (hpid r).trans this.2.1, this.2.2⟩
    · intro r
      change ((hp r).delegators.keys).Nodup
      rw [hpdel]; exact h.delNodup r

theorem Phased.attr {s s' : State F} (h : Phased s s') (r : Ref) :
    (s'.heap r).id = (s.heap r).id ∧ (s'.heap r).owner = (s.heap r).owner ∧ (s'.heap r).delegators = (s.heap r).delegators ∧
    (s'.heap r).stake = (s.heap r).stake ∧ (s'.heap r).pledge = (s.heap r).pledge ∧ (s'.heap r).margin = (s.heap r).margin ∧
    (s'.heap r).cost = (s.heap r).cost ∧ (s'.heap r).isPrivate = (s.heap r).isPrivate := by
  rw [h.heap r]; split <;> exact ⟨rfl, rfl, rfl, rfl, rfl, rfl, rfl, rfl⟩

theorem Phased.inv {n : Nat} {s s' : State F} (hp : Phased s s') (hc : Core n s') (h : Inv n s) : Inv n s' := by
  have hown : ∀ a p, ownOf s' a p = ownOf s a p := by intro a p; unfold ownOf; rw [hp.agents]
  have hstg : ∀ a p, stgOf s' a p = stgOf s a p := by intro a p; unfold stgOf; rw [hp.agents]
  refine ⟨hc, ⟨?_, ?_, ?_, ?_, ?_⟩, ?_, ?_, ?_, ?_⟩
  · intro a p r; rw [hown, hp.pools, (hp.attr r).2.1]; exact h.own.own_iff a p r
  · intro a p r; rw [hstg, hp.pools, (hp.attr r).2.1, (hp.attr r).1, hp.next]; exact h.own.stg_ok a p r
  · intro a p r; rw [hstg, hp.idSeq]; exact h.own.stg_id a p r
  · intro a p r; rw [hstg, hp.pools]; intro hr q hq; rw [(hp.attr q).2.1]; exact h.own.stg_pool a p r hr q hq
  · intro a a' p r r'; rw [hstg, hstg]; exact h.own.stg_uniq a a' p r r'
  · rw [hp.agents]; exact h.tidy
  · intro r hr d hd
    rw [(hp.attr r).2.2.1] at hd
    obtain ⟨a, p, hr⟩ := hr
    rw [hown, hstg] at hr
    obtain ⟨ag, σ, k1, k2⟩ := h.del r ⟨a, p, hr⟩ d hd
    exact ⟨ag, σ, by rw [hp.agents]; exact k1, k2⟩
  · rw [hp.agents]; exact h.abst
  · rw [hp.agents]; exact h.strat

theorem Phased.seqInv {s s' : State F} (hp : Phased s s') (h : SeqInv s) : SeqInv s' := by
  have hal : ∀ b p, allocOf s' b p = allocOf s b p := by intro a p; unfold allocOf; rw [hp.agents]
  refine ⟨hp.simultaneous.trans h.seq, ?_, ?_⟩
  · intro pid r hr b; rw [hp.pools] at hr; rw [(hp.attr r).2.2.1, hal]; exact h.agree pid r hr b
  · intro b pid x hx
    rw [hal] at hx
    obtain ⟨g1, r, g2, g3⟩ := h.good b pid x hx
    exact ⟨g1, r, by rw [hp.pools]; exact g2, by rw [(hp.attr r).2.1]; exact g3⟩

/-! ### The initial state -/

theorem get?_people {α : Type} (f : α → Nat → Agent F) (l : List α) (i a : Nat) (ag : Agent F)
    (h : Dict.get? ((l.zipIdx i).map (fun e => (e.2, f e.1 e.2))) a = some ag) : ∃ x ∈ l, ag = f x a := by
  induction l generalizing i with
  | nil => simp at h
  | cons x t ih =>
    simp only [List.zipIdx_cons, List.map_cons, Dict.get?_cons] at h
    split at h
    · rename_i hi; subst hi
      cases h; exact ⟨x, by simp, rfl⟩
    · obtain ⟨y, hy, he⟩ := ih (i + 1) h
      exact ⟨y, List.mem_cons_of_mem _ hy, he⟩

theorem agents_init {c : Config F} {a : Nat} {ag : Agent F} (h : (initState c).agents.get? a = some ag) :
    ∃ x ∈ c.people, ag = newAgent a x.1 x.2.1 x.2.2 :=
  get?_people (fun (x : F × F × Profile) i => newAgent i x.1 x.2.1 x.2.2) c.people 0 a ag h

theorem keys_init (c : Config F) : (initState c).agents.keys = List.range c.people.length := by
  simp only [initState, Dict.keys, List.map_map]
  change c.people.zipIdx.map Prod.snd = _
  rw [List.zipIdx_map_snd, List.range_eq_range']

theorem init_inv (c : Config F) : Inv (c.rs.k + 1) (initState c) := by
  have hst : ∀ a ag, (initState c).agents.get? a = some ag → ag.newStrategy = none ∧ ag.id = a ∧
      (ag.profile = .abstainer → ag.strategy = none) ∧ (ag.profile ≠ .abstainer → ag.strategy = some { allocs := [], owned := [] }) := by
    intro a ag h
    obtain ⟨x, -, rfl⟩ := agents_init h
    obtain ⟨x1, x2, x3⟩ := x
    cases x3 <;> simp [newAgent]
  have hown : ∀ a p r, ownOf (initState c) a p ≠ some r := by
    intro a p r hr
    unfold ownOf at hr
    cases h : (initState c).agents.get? a with
    | none => rw [h] at hr; cases hr
    | some ag =>
      rw [h] at hr
      by_cases hp : ag.profile = .abstainer
      · simp [(hst a ag h).2.2.1 hp] at hr
      · simp [(hst a ag h).2.2.2 hp] at hr
  have hstg : ∀ a p r, stgOf (initState c) a p ≠ some r := by
    intro a p r hr
    unfold stgOf at hr
    cases h : (initState c).agents.get? a with
    | none => rw [h] at hr; cases hr
    | some ag => rw [h] at hr; simp [(hst a ag h).1] at hr
  have hpools : ∀ p r, (initState c).pools.get? p ≠ some r := by intro p r; simp [initState]
  refine ⟨⟨?_, fun a ag h => (hst a ag h).2.1, ?_, ?_, ?_, ?_, ?_, ?_, ?_⟩, ⟨?_, ?_, ?_, ?_, ?_⟩, ?_, ?_, ?_, ?_⟩
  · rw [keys_init]; exact List.nodup_range
  · simp [initState, Dict.keys]
  · intro p r h; exact absurd h (hpools p r)
  · simp [initState, SKL.Sorted, List.pairwise_replicate]
  · simp [initState, rankEntries]
  · simp [initState, SKL.Sorted, List.pairwise_replicate]
  · simp [initState, rankEntries]
  · intro r; simp [initState, blankPool, Dict.keys]
  · intro a p r; exact ⟨fun h => absurd h (hown a p r), fun h => absurd h.1 (hpools p r)⟩
  · intro a p r h; exact absurd h (hstg a p r)
  · intro a p r h; exact absurd h (hstg a p r)
  · intro a p r h; exact absurd h (hstg a p r)
  · intro a a' p r r' h; exact absurd h (hstg a p r)
  · intro a ag h
    obtain ⟨k1, k2, k3, k4⟩ := hst a ag h
    refine ⟨?_, ?_, ?_, ?_⟩
    · intro σ hσ
      by_cases hp : ag.profile = .abstainer
      · rw [k3 hp] at hσ; cases hσ
      · rw [k4 hp] at hσ; cases hσ; simp [Dict.keys]
    · intro σ hσ
      by_cases hp : ag.profile = .abstainer
      · rw [k3 hp] at hσ; cases hσ
      · rw [k4 hp] at hσ; cases hσ; simp [Dict.keys]
    · intro σ hσ; rw [k1] at hσ; cases hσ
    · intro σ hσ; rw [k1] at hσ; cases hσ
  · rintro r ⟨a, p, h | h⟩
    · exact absurd h (hown a p r)
    · exact absurd h (hstg a p r)
  · intro a ag h hp; exact ⟨(hst a ag h).2.2.1 hp, (hst a ag h).1⟩
  · intro a ag h hp; exact ⟨_, (hst a ag h).2.2.2 hp⟩

theorem init_settled (c : Config F) : Settled (initState c) := by
  intro a ag h
  obtain ⟨x, -, rfl⟩ := agents_init h
  rfl

theorem init_seq (c : Config F) (h : c.simultaneous = false) : SeqInv (initState c) := by
  refine ⟨h, ?_, ?_⟩
  · intro p r h; simp [initState] at h
  · intro b p x hx
    unfold allocOf at hx
    cases h : (initState c).agents.get? b with
    | none => rw [h] at hx; cases hx
    | some ag =>
      rw [h] at hx
      obtain ⟨⟨x1, x2, x3⟩, -, rfl⟩ := agents_init h
      cases x3 <;> simp [newAgent] at hx

end RSE
