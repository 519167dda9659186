import Verif.Model.Sim
import Verif.Lemmas.Dict
import Verif.Lemmas.SKL
import Verif.Lemmas.Sat

/-!
# The structural invariant of the pools and of both rankings

Everything in this file holds for arbitrary arithmetic (no laws of `+ - * /` are used).
-/

set_option linter.unusedSectionVars false

namespace RSE

variable {F : Type} [LinearOrder F] [Zero F] [One F] [Add F] [Sub F] [Mul F] [Div F] [Neg F] [NatCast F] [FSum F]

/-- the entries that a ranking with key function `key` and `n` place-holders must have -/
def rankEntries {κ : Type} (n : Nat) (noneK : κ) (key : Pool F → κ) (pools : Dict Ref) (heap : Ref → Pool F) : List (κ × Option Ref) :=
  List.replicate n (noneK, none) ++ pools.map (fun e => (key (heap e.2), some e.2))

/-- The structural invariant; `n` is the number of `None` place-holders in the rankings. -/
structure Core (n : Nat) (s : State F) : Prop where
  agentsNodup : s.agents.keys.Nodup
  agentId : ∀ aid a, s.agents.get? aid = some a → a.id = aid
  poolsNodup : s.pools.keys.Nodup
  poolRef : ∀ pid r, s.pools.get? pid = some r → r < s.next ∧ (s.heap r).id = pid ∧ 1 ≤ pid ∧ pid ≤ s.idSeq
  rankSorted : s.rank.Sorted
  rankPerm : s.rank.Perm (rankEntries n noneKey poolKey s.pools s.heap)
  rankMSorted : s.rankM.Sorted
  rankMPerm : s.rankM.Perm (rankEntries n noneKeyM (poolKeyM s.rs) s.pools s.heap)
  delNodup : ∀ r, (s.heap r).delegators.keys.Nodup

namespace Core
variable {n : Nat} {s : State F}

theorem mem_rank (h : Core n s) {pid : Nat} {r : Ref} (hp : s.pools.get? pid = some r) : (poolKey (s.heap r), some r) ∈ s.rank := by
  rw [h.rankPerm.mem_iff]
  exact List.mem_append_right _ (List.mem_map.2 ⟨(pid, r), Dict.mem_of_get? hp, rfl⟩)

theorem mem_rankM (h : Core n s) {pid : Nat} {r : Ref} (hp : s.pools.get? pid = some r) :
    (poolKeyM s.rs (s.heap r), some r) ∈ s.rankM := by
  rw [h.rankMPerm.mem_iff]
  exact List.mem_append_right _ (List.mem_map.2 ⟨(pid, r), Dict.mem_of_get? hp, rfl⟩)

theorem of_mem_rank (h : Core n s) {k : Key F} {r : Ref} (hm : (k, some r) ∈ s.rank) :
    s.pools.get? (s.heap r).id = some r ∧ k = poolKey (s.heap r) := by
  rw [h.rankPerm.mem_iff] at hm
  rcases List.mem_append.1 hm with hm | hm
  · cases List.eq_of_mem_replicate hm
  · obtain ⟨⟨pid, r'⟩, hm2, he⟩ := List.mem_map.1 hm
    cases he
    have hp := Dict.get?_of_mem h.poolsNodup hm2
    rw [(h.poolRef _ _ hp).2.1]
    exact ⟨hp, rfl⟩

theorem of_mem_rankM (h : Core n s) {k : KeyM F} {r : Ref} (hm : (k, some r) ∈ s.rankM) :
    s.pools.get? (s.heap r).id = some r ∧ k = poolKeyM s.rs (s.heap r) := by
  rw [h.rankMPerm.mem_iff] at hm
  rcases List.mem_append.1 hm with hm | hm
  · cases List.eq_of_mem_replicate hm
  · obtain ⟨⟨pid, r'⟩, hm2, he⟩ := List.mem_map.1 hm
    cases he
    have hp := Dict.get?_of_mem h.poolsNodup hm2
    rw [(h.poolRef _ _ hp).2.1]
    exact ⟨hp, rfl⟩

/-- every pool entry of an agent's rankings is an open pool -/
theorem of_mem_rankingsOf (h : Core n s) {me : Agent F} {r : Ref} (hm : some r ∈ rankingsOf s me) :
    s.pools.get? (s.heap r).id = some r := by
  unfold rankingsOf at hm
  split at hm <;> obtain ⟨⟨k, e⟩, hm, he⟩ := List.mem_map.1 hm <;> simp only at he <;> subst he
  · exact (h.of_mem_rank hm).1
  · exact (h.of_mem_rankM hm).1

theorem ref_inj (h : Core n s) {pid pid' : Nat} {r : Ref} (hp : s.pools.get? pid = some r) (hp' : s.pools.get? pid' = some r) :
    pid = pid' := by
  rw [← (h.poolRef _ _ hp).2.1, ← (h.poolRef _ _ hp').2.1]

theorem erase_ref_ne (h : Core n s) {pid : Nat} {r : Ref} (hp : s.pools.get? pid = some r) {e : Nat × Ref}
    (he : e ∈ s.pools.erase pid) : e.2 ≠ r := by
  intro hr
  obtain ⟨pid', r'⟩ := e
  simp only at hr; subst hr
  have hnd := Dict.nodup_erase h.poolsNodup pid
  have h1 := Dict.get?_of_mem hnd he
  rw [Dict.get?_erase h.poolsNodup] at h1
  split at h1
  · cases h1
  · rename_i hne
    exact hne (h.ref_inj hp h1)

theorem map_perm {κ : Type} (key : Pool F → κ) {pid : Nat} {r : Ref} (hp : s.pools.get? pid = some r) :
    (s.pools.map (fun e => (key (s.heap e.2), some e.2))).Perm
      ((key (s.heap r), some r) :: (s.pools.erase pid).map (fun e => (key (s.heap e.2), some e.2))) := by
  simpa using (Dict.perm_cons_erase hp).map (fun e => (key (s.heap e.2), some e.2))

theorem map_update_perm {κ : Type} (h : Core n s) (key : Pool F → κ) {pid : Nat} {r : Ref} (hp : s.pools.get? pid = some r) (p : Pool F) :
    (s.pools.map (fun e => (key (Function.update s.heap r p e.2), some e.2))).Perm
      ((key p, some r) :: (s.pools.erase pid).map (fun e => (key (s.heap e.2), some e.2))) := by
  have h1 := (Dict.perm_cons_erase hp).map (fun e => (key (Function.update s.heap r p e.2), some e.2))
  simp only [List.map_cons, Function.update_self] at h1
  refine h1.trans (List.Perm.cons _ (List.Perm.of_eq ?_))
  apply List.map_congr_left
  intro e he
  rw [Function.update_of_ne (h.erase_ref_ne hp he)]

/-- move an element of the second part of an append to the front -/
theorem _root_.RSE.perm_append_cons {α : Type} {l a b : List α} {x : α} (h : l.Perm (a ++ b)) {c : List α} (hb : b.Perm (x :: c)) :
    l.Perm (x :: (a ++ c)) :=
  h.trans ((hb.append_left a).trans List.perm_middle)

end Core

/-! ### Primitive mutations -/

theorem nodup_updateDelegation {p : Pool F} (h : p.delegators.keys.Nodup) (x : F) (a : Nat) :
    (p.updateDelegation x a).delegators.keys.Nodup := by
  unfold Pool.updateDelegation
  simp only
  split
  · exact Dict.nodup_erase (Dict.nodup_set h _ _) _
  · exact Dict.nodup_set h _ _

theorem nodup_update {heap : Ref → Pool F} (h : ∀ r, (heap r).delegators.keys.Nodup) {r : Ref} {p : Pool F}
    (hp : p.delegators.keys.Nodup) : ∀ r', (Function.update heap r p r').delegators.keys.Nodup := by
  intro r'
  by_cases hr : r' = r
  · subst hr; rwa [Function.update_self]
  · rw [Function.update_of_ne hr]; exact h r'

/-- `pool_rankings_myopic` keys change, everything else of a ranking stays: replacing the pool object at `r`
by one with the same `pool_comparison_key` and re-inserting it into the myopic ranking. -/
theorem Core.setDelegation {n : Nat} {s : State F} (h : Core n s) {pid : Nat} {r : Ref} (hp : s.pools.get? pid = some r) (x : F) (a : Nat) :
    ∃ lm, RSE.setDelegation s pid x a = .ok { s with heap := Function.update s.heap r ((s.heap r).updateDelegation x a), rankM := lm } ∧
      Core n { s with heap := Function.update s.heap r ((s.heap r).updateDelegation x a), rankM := lm } := by
  obtain ⟨l', h1, h2, h3⟩ := SKL.remove_ok h.rankMSorted (h.mem_rankM hp)
  set p := (s.heap r).updateDelegation x a with hpd
  have hid : p.id = (s.heap r).id := rfl
  refine ⟨l'.add (poolKeyM s.rs p) (some r), ?_, ?_⟩
  · simp [RSE.setDelegation, Dict.getE_of hp, bind, Except.bind, h1, pure, Except.pure, State.setPool, ← hpd]
  · have hperm : l'.Perm (List.replicate n (noneKeyM, none) ++ (s.pools.erase pid).map (fun e => (poolKeyM s.rs (s.heap e.2), some e.2))) := by
      have := h2.symm.trans (perm_append_cons h.rankMPerm (Core.map_perm (poolKeyM s.rs) hp))
      exact this.cons_inv
    refine ⟨h.agentsNodup, h.agentId, h.poolsNodup, ?_, h.rankSorted, ?_, SKL.sorted_add h3 _ _, ?_,
      nodup_update h.delNodup (nodup_updateDelegation (h.delNodup r) _ _)⟩
    · intro pid' r' hp'
      obtain ⟨g1, g2, g3⟩ := h.poolRef pid' r' hp'
      refine ⟨g1, ?_, g3⟩
      by_cases hr : r' = r
      · subst hr; simp only [Function.update_self]; exact g2
      · simp only [Function.update_of_ne hr]; exact g2
    · have hk : poolKey p = poolKey (s.heap r) := rfl
      have e1 := Core.map_perm poolKey hp
      have e2 := h.map_update_perm poolKey hp p
      rw [hk] at e2
      exact h.rankPerm.trans ((e1.trans e2.symm).append_left _)
    · have e2 := h.map_update_perm (poolKeyM s.rs) hp p
      refine (SKL.add_perm _ _ _).trans ((hperm.cons _).trans ?_)
      exact (List.perm_middle.symm).trans ((e2.symm).append_left _)

theorem setDelegation_missing {s : State F} {pid : Nat} (hp : s.pools.get? pid = none) (x : F) (a : Nat) :
    RSE.setDelegation s pid x a = .error .key := by
  simp [RSE.setDelegation, Dict.getE_none hp, bind, Except.bind]

/-- creating an object does not touch the invariant -/
theorem Core.alloc {n : Nat} {s : State F} (h : Core n s) (p : Pool F) (hp : p.delegators.keys.Nodup) : Core n (s.alloc p) := by
  have hne : ∀ e ∈ s.pools, e.2 ≠ s.next := by
    rintro ⟨pid, r⟩ he
    have := (h.poolRef _ _ (Dict.get?_of_mem h.poolsNodup he)).1
    exact Nat.ne_of_lt this
  have hmap : ∀ {κ : Type} (key : Pool F → κ),
      s.pools.map (fun e => (key (Function.update s.heap s.next p e.2), some e.2)) =
      s.pools.map (fun e => (key (s.heap e.2), some e.2)) := by
    intro κ key
    apply List.map_congr_left
    intro e he
    rw [Function.update_of_ne (hne e he)]
  refine ⟨h.agentsNodup, h.agentId, h.poolsNodup, ?_, h.rankSorted, ?_, h.rankMSorted, ?_,
    nodup_update h.delNodup hp⟩
  · intro pid r hq
    obtain ⟨h1, h2, h3⟩ := h.poolRef pid r hq
    refine ⟨Nat.lt_succ_of_lt h1, ?_, h3⟩
    simp only [State.alloc]
    rw [Function.update_of_ne (Nat.ne_of_lt h1)]; exact h2
  · simp only [State.alloc, rankEntries, hmap]; exact h.rankPerm
  · simp only [State.alloc, rankEntries, hmap]; exact h.rankMPerm

/-- overwriting an object that is not an open pool does not touch the invariant -/
theorem Core.setPool_draft {n : Nat} {s : State F} (h : Core n s) {r : Ref} (hr : ∀ pid, s.pools.get? pid ≠ some r) (p : Pool F)
    (hp : p.delegators.keys.Nodup) : Core n (s.setPool r p) := by
  have hne : ∀ e ∈ s.pools, e.2 ≠ r := by
    rintro ⟨pid, r'⟩ he hre
    simp only at hre; subst hre
    exact hr pid (Dict.get?_of_mem h.poolsNodup he)
  have hmap : ∀ {κ : Type} (key : Pool F → κ),
      s.pools.map (fun e => (key (Function.update s.heap r p e.2), some e.2)) =
      s.pools.map (fun e => (key (s.heap e.2), some e.2)) := by
    intro κ key
    apply List.map_congr_left
    intro e he
    rw [Function.update_of_ne (hne e he)]
  refine ⟨h.agentsNodup, h.agentId, h.poolsNodup, ?_, h.rankSorted, ?_, h.rankMSorted, ?_,
    nodup_update h.delNodup hp⟩
  · intro pid r' hq
    obtain ⟨h1, h2, h3⟩ := h.poolRef pid r' hq
    refine ⟨h1, ?_, h3⟩
    have : r' ≠ r := fun e => hr pid (e ▸ hq)
    simp only [State.setPool]
    rw [Function.update_of_ne this]; exact h2
  · simp only [State.setPool, rankEntries, hmap]; exact h.rankPerm
  · simp only [State.setPool, rankEntries, hmap]; exact h.rankMPerm

/-- a new pool id is drawn -/
theorem Core.nextId {n : Nat} {s : State F} (h : Core n s) {i : Nat} (hi : s.idSeq ≤ i) : Core n { s with idSeq := i } :=
  ⟨h.agentsNodup, h.agentId, h.poolsNodup,
    fun pid r hp => let ⟨a, b, c, d⟩ := h.poolRef pid r hp; ⟨a, b, c, d.trans hi⟩,
    h.rankSorted, h.rankPerm, h.rankMSorted, h.rankMPerm, h.delNodup⟩

/-- agents are changed, but not their ids -/
theorem Core.setAgents {n : Nat} {s : State F} (h : Core n s) {ag : Dict (Agent F)} (h1 : ag.keys.Nodup)
    (h2 : ∀ aid a, ag.get? aid = some a → a.id = aid) : Core n { s with agents := ag } :=
  ⟨h1, h2, h.poolsNodup, h.poolRef, h.rankSorted, h.rankPerm, h.rankMSorted, h.rankMPerm, h.delNodup⟩

theorem Core.setAgent {n : Nat} {s : State F} (h : Core n s) (a : Agent F) : Core n (s.setAgent a) := by
  refine h.setAgents (Dict.nodup_set h.agentsNodup _ _) ?_
  intro aid b hb
  rw [Dict.get?_set] at hb
  split at hb
  · rename_i he; cases hb; exact he
  · exact h.agentId _ _ hb

theorem Core.setIdle {n : Nat} {s : State F} (h : Core n s) (b : Bool) : Core n { s with idle := b } :=
  ⟨h.agentsNodup, h.agentId, h.poolsNodup, h.poolRef, h.rankSorted, h.rankPerm, h.rankMSorted, h.rankMPerm, h.delNodup⟩

/-- a pool object is added to `model.pools` and both rankings -/
theorem Core.openRef {n : Nat} {s : State F} (h : Core n s) {pid : Nat} {r : Ref} (hp : s.pools.get? pid = none)
    (hr : r < s.next) (hid : (s.heap r).id = pid) (h1 : 1 ≤ pid) (h2 : pid ≤ s.idSeq) :
    Core n { s with
      pools := s.pools.set pid r
      rank := s.rank.add (poolKey (s.heap r)) (some r)
      rankM := s.rankM.add (poolKeyM s.rs (s.heap r)) (some r) } := by
  have hnk : pid ∉ s.pools.keys := Dict.get?_eq_none.1 hp
  have hset : ∀ {κ : Type} (key : Pool F → κ),
      ((s.pools.set pid r).map (fun e => (key (s.heap e.2), some e.2))).Perm
      ((key (s.heap r), some r) :: s.pools.map (fun e => (key (s.heap e.2), some e.2))) := by
    intro κ key
    have := (Dict.set_perm s.pools pid r).map (fun e => (key (s.heap e.2), some e.2))
    rwa [Dict.erase_of_not_mem hnk, List.map_cons] at this
  refine ⟨h.agentsNodup, h.agentId, Dict.nodup_set h.poolsNodup _ _, ?_, SKL.sorted_add h.rankSorted _ _, ?_,
    SKL.sorted_add h.rankMSorted _ _, ?_, h.delNodup⟩
  · intro pid' r' hp'
    simp only [Dict.get?_set] at hp'
    split at hp'
    · rename_i he; subst he; cases hp'; exact ⟨hr, hid, h1, h2⟩
    · exact h.poolRef _ _ hp'
  · refine (SKL.add_perm _ _ _).trans ((h.rankPerm.cons _).trans ?_)
    exact (List.perm_middle.symm).trans ((hset poolKey).symm.append_left _)
  · refine (SKL.add_perm _ _ _).trans ((h.rankMPerm.cons _).trans ?_)
    exact (List.perm_middle.symm).trans ((hset (poolKeyM s.rs)).symm.append_left _)

/-- a pool is taken out of both rankings and of `model.pools` -/
theorem Core.closeRef {n : Nat} {s : State F} (h : Core n s) {pid : Nat} {r : Ref} (hp : s.pools.get? pid = some r) :
    ∃ l lm, s.rank.remove (poolKey (s.heap r)) (some r) = .ok l ∧ s.rankM.remove (poolKeyM s.rs (s.heap r)) (some r) = .ok lm ∧
      Core n { s with pools := s.pools.erase pid, rank := l, rankM := lm } := by
  obtain ⟨l, h1, h2, h3⟩ := SKL.remove_ok h.rankSorted (h.mem_rank hp)
  obtain ⟨lm, m1, m2, m3⟩ := SKL.remove_ok h.rankMSorted (h.mem_rankM hp)
  refine ⟨l, lm, h1, m1, h.agentsNodup, h.agentId, Dict.nodup_erase h.poolsNodup _, ?_, h3, ?_, m3, ?_, h.delNodup⟩
  · intro pid' r' hp'
    simp only at hp'
    rw [Dict.get?_erase h.poolsNodup] at hp'
    split at hp'
    · cases hp'
    · exact h.poolRef _ _ hp'
  · exact (h2.symm.trans (perm_append_cons h.rankPerm (Core.map_perm poolKey hp))).cons_inv
  · exact (m2.symm.trans (perm_append_cons h.rankMPerm (Core.map_perm (poolKeyM s.rs) hp))).cons_inv

end RSE
