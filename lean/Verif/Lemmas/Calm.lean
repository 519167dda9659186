import Verif.Lemmas.Private

/-!
# With exact arithmetic planning leaves everything as it was (sequential activation)
-/

set_option linter.unusedSectionVars false

namespace RSE

section
variable {F : Type} [LinearOrder F] [Zero F] [One F] [Add F] [Sub F] [Mul F] [Div F] [Neg F] [NatCast F] [FSum F]

/-- two pool objects agree in everything but the order of their delegators -/
structure Alike (p p' : Pool F) : Prop where
  same : SamePool p p'
  stake : p'.stake = p.stake

theorem Alike.refl (p : Pool F) : Alike p p := ⟨SamePool.refl _, rfl⟩

theorem Alike.trans {p q r : Pool F} (h : Alike p q) (g : Alike q r) : Alike p r := ⟨h.same.trans g.same, g.stake.trans h.stake⟩

theorem SamePool.symm {p q : Pool F} (h : SamePool p q) : SamePool q p :=
  ⟨h.id.symm, h.cost.symm, h.pledge.symm, h.owner.symm, h.isPrivate.symm, h.pp.symm, h.margin.symm, h.des.symm⟩

theorem Alike.symm {p q : Pool F} (h : Alike p q) : Alike q p := ⟨h.same.symm, h.stake.symm⟩

theorem Alike.keyM {p p' : Pool F} (h : Alike p p') (rs : RS F) : poolKeyM rs p' = poolKeyM rs p := by
  unfold poolKeyM myopicDes
  rw [h.stake, h.same.pledge, h.same.margin, h.same.cost, h.same.id]

/-- dictionaries with the same lookups are permutations of each other -/
theorem Dict.perm_of_get? {V : Type} {d d' : Dict V} (h : d.keys.Nodup) (h' : d'.keys.Nodup) (he : ∀ k, d'.get? k = d.get? k) : d'.Perm d := by
  rw [List.perm_ext_iff_of_nodup (List.Nodup.of_map _ h') (List.Nodup.of_map _ h)]
  rintro ⟨k, v⟩
  constructor
  · intro hm
    have := Dict.get?_of_mem h' hm
    rw [he] at this
    exact Dict.mem_of_get? this
  · intro hm
    have := Dict.get?_of_mem h hm
    rw [← he] at this
    exact Dict.mem_of_get? this

/-- nothing that anybody can see has changed -/
structure Calm (s s' : State F) : Prop where
  eq : s' = { s with heap := s'.heap, next := s'.next, idSeq := s'.idSeq }
  next_le : s.next ≤ s'.next
  alike : ∀ r < s.next, Alike (s.heap r) (s'.heap r)
  dels : ∀ r < s.next, (s'.heap r).delegators.Perm (s.heap r).delegators

theorem Calm.refl (s : State F) : Calm s s := ⟨rfl, le_rfl, fun _ _ => Alike.refl _, fun _ _ => List.Perm.refl _⟩

theorem Calm.trans {s s' s'' : State F} (h : Calm s s') (g : Calm s' s'') : Calm s s'' := by
  refine ⟨?_, h.next_le.trans g.next_le, fun r hr => (h.alike r hr).trans (g.alike r (lt_of_lt_of_le hr h.next_le)),
    fun r hr => (g.dels r (lt_of_lt_of_le hr h.next_le)).trans (h.dels r hr)⟩
  rw [g.eq, h.eq]

theorem Calm.pools {s s' : State F} (h : Calm s s') : s'.pools = s.pools := by rw [h.eq]
theorem Calm.agents {s s' : State F} (h : Calm s s') : s'.agents = s.agents := by rw [h.eq]
theorem Calm.rs {s s' : State F} (h : Calm s s') : s'.rs = s.rs := by rw [h.eq]
theorem Calm.rank {s s' : State F} (h : Calm s s') : s'.rank = s.rank := by rw [h.eq]
theorem Calm.rankM {s s' : State F} (h : Calm s s') : s'.rankM = s.rankM := by rw [h.eq]
theorem Calm.totalStake {s s' : State F} (h : Calm s s') : s'.totalStake = s.totalStake := by rw [h.eq]
theorem Calm.extraFrac {s s' : State F} (h : Calm s s') : s'.extraFrac = s.extraFrac := by rw [h.eq]
theorem Calm.relThr {s s' : State F} (h : Calm s s') : s'.relThr = s.relThr := by rw [h.eq]
theorem Calm.absThr {s s' : State F} (h : Calm s s') : s'.absThr = s.absThr := by rw [h.eq]

/-- sorted lists with the same entries are the same, if equal keys mean equal entries -/
theorem SKL.eq_of_perm {κ α : Type} [LinearOrder κ] {l l' : SKL κ α} (h : l.Sorted) (h' : l'.Sorted) (hp : l.Perm l')
    (hu : ∀ e ∈ l, ∀ e' ∈ l, e.1 = e'.1 → e = e') : l = l' := by
  refine List.Perm.eq_of_pairwise (le := fun (a b : κ × α) => a.1 ≤ b.1) ?_ h h' hp
  intro a b ha hb hab hba
  exact hu a ha b (hp.mem_iff.2 hb) (le_antisymm hab hba)

/-- different entries of the myopic ranking have different keys -/
theorem Core.rankM_unique {n : Nat} {s : State F} (h : Core n s) : ∀ e ∈ s.rankM, ∀ e' ∈ s.rankM, e.1 = e'.1 → e = e' := by
  have key : ∀ e ∈ s.rankM, (e = (noneKeyM, none)) ∨ ∃ pid r, s.pools.get? pid = some r ∧ e = (poolKeyM s.rs (s.heap r), some r) := by
    intro e he
    rw [h.rankMPerm.mem_iff] at he
    rcases List.mem_append.1 he with he | he
    · exact Or.inl (List.eq_of_mem_replicate he)
    · obtain ⟨⟨pid, r⟩, hm, rfl⟩ := List.mem_map.1 he
      exact Or.inr ⟨pid, r, Dict.get?_of_mem h.poolsNodup hm, rfl⟩
  have hid : ∀ {r r' : Ref}, poolKeyM s.rs (s.heap r) = poolKeyM s.rs (s.heap r') → (s.heap r).id = (s.heap r').id := by
    intro r r' hk
    unfold poolKeyM at hk
    exact (Prod.mk.inj (toLex_inj.1 hk)).2
  intro e he e' he' hee
  rcases key e he with h1 | ⟨pid, r, hp, h1⟩ <;> rcases key e' he' with h2 | ⟨pid', r', hp', h2⟩ <;> subst h1 <;> subst h2
  · rfl
  · exfalso
    have := (Prod.mk.inj (toLex_inj.1 hee)).2
    have h3 := h.poolRef _ _ hp'
    omega
  · exfalso
    have := (Prod.mk.inj (toLex_inj.1 hee)).2
    have h3 := h.poolRef _ _ hp
    omega
  · have h1 := hid hee
    rw [(h.poolRef _ _ hp).2.1, (h.poolRef _ _ hp').2.1] at h1
    subst h1
    rw [hp] at hp'
    cases hp'
    rfl

theorem recorded_of_min {x : F} (h : minUnit ≤ x) : recorded x = some x := by simp [recorded, not_lt.2 h]

end

variable {K : Type} [Field K] [LinearOrder K] [IsStrictOrderedRing K]

theorem Balanced.stake_eq {p p' : Pool K} (h : Balanced p) (h' : Balanced p') (hs : SamePool p p') (he : ∀ b, p'.delegators.get? b = p.delegators.get? b) :
    p'.stake = p.stake := by
  rw [h.stake, h'.stake, hs.pledge, Dict.total_perm (Dict.perm_of_get? h.nodup h'.nodup he)]

theorem Balanced.stake_removed {p p' : Pool K} (h : Balanced p) (h' : Balanced p') (hs : SamePool p p') {a : Nat}
    (he : ∀ b, b ≠ a → p'.delegators.get? b = p.delegators.get? b) (ha : p'.delegators.get? a = none) :
    p'.stake = p.stake - (p.delegators.get? a).getD 0 := by
  have h1 : p'.delegators.Perm (p.delegators.erase a) := by
    apply Dict.perm_of_get? (Dict.nodup_erase h.nodup a) h'.nodup
    intro b
    rw [Dict.get?_erase h.nodup]
    split
    · rename_i hab; rw [← hab]; exact ha
    · rename_i hab; exact he b (fun hh => hab hh.symm)
  rw [h.stake, h'.stake, hs.pledge, Dict.total_perm h1]
  cases hg : p.delegators.get? a with
  | none => rw [Dict.erase_of_not_mem (Dict.get?_eq_none.1 hg)]; simp
  | some x => rw [Dict.total_erase hg]; simp only [Option.getD_some]; ring

/-- the books are in order, and the planning agent knows its delegations -/
structure Ready (n : Nat) (s : State K) (a : Nat) (σ : Strategy K) : Prop where
  core : Core n s
  bal : AllPools Balanced s
  nodup : σ.allocs.keys.Nodup
  min : ∀ e ∈ σ.allocs, minUnit ≤ e.2
  agree : ∀ pid r, s.pools.get? pid = some r → (s.heap r).delegators.get? a = σ.allocs.get? pid
  exist : ∀ pid x, σ.allocs.get? pid = some x → ∃ r, s.pools.get? pid = some r

theorem updOK_setDelegations {P : Pool K → Prop} (hP : UpdOK P) {a : Nat} : ∀ (l : List (Nat × K)) (s s' : State K), (∀ e ∈ l, e.2 = 0 ∨ minUnit ≤ e.2) →
    AllPools P s → setDelegations s a l = .ok s' → AllPools P s'
  | [], s, s', _, h, he => by cases he; exact h
  | (pid, x) :: t, s, s', hx, h, he => by
    unfold setDelegations at he
    obtain ⟨s₁, h1, h2⟩ := bind_ok he
    refine updOK_setDelegations hP t s₁ s' (fun e he => hx e (List.mem_cons_of_mem _ he)) ?_ h2
    unfold setDelegation at h1
    obtain ⟨r, h3, h4⟩ := bind_ok h1
    obtain ⟨lm, h5, h6⟩ := bind_ok h4
    cases h6
    intro r'
    change P (Function.update s.heap r _ r')
    by_cases hr : r' = r
    · subst hr; rw [Function.update_self]; exact hP _ _ _ (h r') (hx _ List.mem_cons_self)
    · rw [Function.update_of_ne hr]; exact h r'

/-- the state while the agent's own delegations are taken out -/
structure TakenOut (s s₁ : State K) (a : Nat) (σ : Strategy K) : Prop where
  same : ∀ r, SamePool (s.heap r) (s₁.heap r)
  stake : ∀ pid r, s.pools.get? pid = some r → (s₁.heap r).stake = (s.heap r).stake - (σ.allocs.get? pid).getD 0
  shuf : Shuf a σ.allocs.keys s s₁
  core : ∃ n, Core n s₁
  bal : AllPools Balanced s₁
  none : ∀ pid r, s.pools.get? pid = some r → (s₁.heap r).delegators.get? a = none

theorem Ready.takeOut {n : Nat} {s s₁ : State K} {a : Nat} {σ : Strategy K} (h : Ready n s a σ)
    (h1 : setDelegations s a (σ.allocs.map (fun e => (e.1, 0))) = .ok s₁) : TakenOut s s₁ a σ ∧ Core n s₁ := by
  have hk : Dict.keys (σ.allocs.map (fun e => (e.1, (0 : K)))) = σ.allocs.keys := Dict.keys_map_snd σ.allocs (fun _ _ => (0 : K))
  have hspec := setDelegations_spec a (σ.allocs.map (fun e => (e.1, (0 : K)))) s h.core (by rw [hk]; exact h.nodup)
  obtain ⟨c1, sh, hv⟩ := hspec.of_ok h1
  rw [hk] at sh
  have hbal : AllPools Balanced s₁ := by
    refine updOK_setDelegations balanced_upd _ _ _ ?_ h.bal h1
    intro e he
    obtain ⟨e', -, rfl⟩ := List.mem_map.1 he
    exact Or.inl rfl
  have hnone : ∀ pid r, s.pools.get? pid = some r → (s₁.heap r).delegators.get? a = none := by
    intro pid r hp
    have := hv pid r hp
    rw [Dict.get?_map_snd σ.allocs (fun _ _ => (0 : K))] at this
    rw [this, h.agree pid r hp]
    cases hx : σ.allocs.get? pid with
    | none => rfl
    | some x => simp [recorded, minUnit_pos]
  refine ⟨⟨sh.same, ?_, sh, ⟨n, c1⟩, hbal, hnone⟩, c1⟩
  intro pid r hp
  rw [(h.bal r).stake_removed (hbal r) (sh.same r) (fun b hb => sh.others r b hb) (hnone pid r hp), h.agree pid r hp]

/-- Looking for a delegation changes nothing. -/
theorem Delegated.calm {n : Nat} {s s' : State K} {me : Agent K} {σ δ : Strategy K} {stake : K} (hd : Delegated s me σ stake s' δ) (h : Ready n s me.id σ) :
    Calm s s' ∧ s'.next = s.next ∧ s'.idSeq = s.idSeq ∧ Ready n s' me.id σ := by
  cases hd with
  | tiny _ hs _ => subst hs; exact ⟨Calm.refl _, rfl, rfl, h⟩
  | none _ _ hs _ => subst hs; exact ⟨Calm.refl _, rfl, rfl, h⟩
  | some s₁ hst he h1 h2 hδ =>
    obtain ⟨ht, c1⟩ := h.takeOut h1
    obtain ⟨c2, sh2, hv2⟩ := (setDelegations_spec me.id σ.allocs s₁ c1 h.nodup).of_ok h2
    have sh := ht.shuf.trans sh2 (fun _ h => h) (fun _ h => h)
    have hbal : AllPools Balanced s' := updOK_setDelegations balanced_upd _ _ _ (fun e he => Or.inr (h.min e he)) ht.bal h2
    have hget : ∀ r b, (s'.heap r).delegators.get? b = (s.heap r).delegators.get? b := by
      intro r b
      by_cases hb : b = me.id
      · subst hb
        by_cases hr : ∃ pid ∈ σ.allocs.keys, s.pools.get? pid = Option.some r
        · obtain ⟨pid, hm, hp⟩ := hr
          obtain ⟨x, hx⟩ := Dict.mem_keys_iff.1 hm
          rw [hv2 pid r (by rw [ht.shuf.pools]; exact hp), h.agree pid r hp, hx]
          exact recorded_of_min (h.min _ (Dict.mem_of_get? hx))
        · push Not at hr
          rw [sh.untouched r hr]
      · exact sh.others r b hb
    have hal : ∀ r, Alike (s.heap r) (s'.heap r) := fun r => ⟨sh.same r, (h.bal r).stake_eq (hbal r) (sh.same r) (hget r)⟩
    have hrm : s'.rankM = s.rankM := by
      refine SKL.eq_of_perm c2.rankMSorted h.core.rankMSorted ?_ c2.rankM_unique
      refine c2.rankMPerm.trans (List.Perm.trans (List.Perm.of_eq ?_) h.core.rankMPerm.symm)
      unfold rankEntries
      rw [sh.pools, sh.rs]
      congr 1
      apply List.map_congr_left
      intro e _
      rw [(hal e.2).keyM]
    refine ⟨⟨?_, le_of_eq sh.next.symm, fun r _ => hal r, fun r _ => Dict.perm_of_get? (h.core.delNodup r) (c2.delNodup r) (hget r)⟩, sh.next, sh.idSeq,
      c2, hbal, h.nodup, h.min, ?_, ?_⟩
    · rw [sh.eq, hrm]
    · intro pid r hp
      rw [hget r]; rw [sh.pools] at hp; exact h.agree pid r hp
    · intro pid x hx; rw [sh.pools]; exact h.exist pid x hx

end RSE
