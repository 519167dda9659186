import Verif.Lemmas.Eval

/-!
# Planning: what `update_strategy` may change and what it stages
-/

set_option linter.unusedSectionVars false

namespace RSE

variable {F : Type} [LinearOrder F] [Zero F] [One F] [Add F] [Sub F] [Mul F] [Div F] [Neg F] [NatCast F] [FSum F]

/-- What planning of agent `a` may do to the state: new objects, new ids, and re-recording of the delegations of `a`
to the pools `ids`. -/
structure Planned (a : Nat) (ids : List Nat) (s s' : State F) : Prop where
  eq : s' = { s with heap := s'.heap, rankM := s'.rankM, next := s'.next, idSeq := s'.idSeq }
  next_le : s.next ≤ s'.next
  idSeq_le : s.idSeq ≤ s'.idSeq
  same : ∀ r < s.next, SamePool (s.heap r) (s'.heap r)
  others : ∀ r < s.next, ∀ b, b ≠ a → (s'.heap r).delegators.get? b = (s.heap r).delegators.get? b
  untouched : ∀ r < s.next, (∀ pid ∈ ids, s.pools.get? pid ≠ some r) → s'.heap r = s.heap r

namespace Planned
variable {a : Nat} {ids : List Nat} {s s' s'' : State F}

theorem pools (h : Planned a ids s s') : s'.pools = s.pools := by rw [h.eq]
theorem agents (h : Planned a ids s s') : s'.agents = s.agents := by rw [h.eq]
theorem rs (h : Planned a ids s s') : s'.rs = s.rs := by rw [h.eq]
theorem extraFrac (h : Planned a ids s s') : s'.extraFrac = s.extraFrac := by rw [h.eq]
theorem rank (h : Planned a ids s s') : s'.rank = s.rank := by rw [h.eq]
theorem simultaneous (h : Planned a ids s s') : s'.simultaneous = s.simultaneous := by rw [h.eq]
theorem totalStake (h : Planned a ids s s') : s'.totalStake = s.totalStake := by rw [h.eq]
theorem idle (h : Planned a ids s s') : s'.idle = s.idle := by rw [h.eq]

theorem refl (a : Nat) (ids : List Nat) (s : State F) : Planned a ids s s :=
  ⟨rfl, le_rfl, le_rfl, fun _ _ => SamePool.refl _, fun _ _ _ _ => rfl, fun _ _ _ => rfl⟩

theorem trans (h : Planned a ids s s') (g : Planned a ids s' s'') : Planned a ids s s'' := by
  refine ⟨?_, h.next_le.trans g.next_le, h.idSeq_le.trans g.idSeq_le, ?_, ?_, ?_⟩
  · rw [g.eq, h.eq]
  · exact fun r hr => (h.same r hr).trans (g.same r (lt_of_lt_of_le hr h.next_le))
  · exact fun r hr b hb => (g.others r (lt_of_lt_of_le hr h.next_le) b hb).trans (h.others r hr b hb)
  · intro r hr hn
    rw [g.untouched r (lt_of_lt_of_le hr h.next_le) (by rw [h.pools]; exact hn), h.untouched r hr hn]

theorem of_shuf (h : Shuf a ids s s') : Planned a ids s s' := by
  refine ⟨?_, by rw [h.next], by rw [h.idSeq], fun r _ => h.same r, fun r _ b hb => h.others r b hb, fun r _ hn => h.untouched r hn⟩
  rw [h.eq]

theorem alloc (h : Planned a ids s s') (p : Pool F) : Planned a ids s (s'.alloc p) := by
  have hne : ∀ r < s.next, (s'.alloc p).heap r = s'.heap r := by
    intro r hr
    exact Function.update_of_ne (Nat.ne_of_lt (lt_of_lt_of_le hr h.next_le)) _ _
  refine ⟨?_, h.next_le.trans (Nat.le_succ _), h.idSeq_le, ?_, ?_, ?_⟩
  · rw [h.eq]; rfl
  · intro r hr; rw [hne r hr]; exact h.same r hr
  · intro r hr; rw [hne r hr]; exact h.others r hr
  · intro r hr; rw [hne r hr]; exact h.untouched r hr

theorem setPool (h : Planned a ids s s') {r₀ : Ref} (hr₀ : s.next ≤ r₀) (p : Pool F) : Planned a ids s (s'.setPool r₀ p) := by
  have hne : ∀ r < s.next, (s'.setPool r₀ p).heap r = s'.heap r := by
    intro r hr
    exact Function.update_of_ne (Nat.ne_of_lt (lt_of_lt_of_le hr hr₀)) _ _
  refine ⟨?_, h.next_le, h.idSeq_le, ?_, ?_, ?_⟩
  · rw [h.eq]; rfl
  · intro r hr; rw [hne r hr]; exact h.same r hr
  · intro r hr; rw [hne r hr]; exact h.others r hr
  · intro r hr; rw [hne r hr]; exact h.untouched r hr

theorem nextId (h : Planned a ids s s') {i : Nat} (hi : s'.idSeq ≤ i) : Planned a ids s { s' with idSeq := i } := by
  refine ⟨?_, h.next_le, h.idSeq_le.trans hi, h.same, h.others, h.untouched⟩
  rw [h.eq]

end Planned

/-- the delegations of the planning agent to open pools are as before or as recorded in its strategy -/
theorem Restored.trans {a : Nat} {al : Dict F} {s s' s'' : State F} (h : Restored a al s s') (g : Restored a al s' s'')
    (hp : s'.pools = s.pools) : Restored a al s s'' := by
  intro pid r hpr
  rcases g pid r (by rw [hp]; exact hpr) with g1 | g1
  · rw [g1]; exact h pid r hpr
  · rw [g1]
    have := h pid r hpr
    cases hal : al.get? pid with
    | none => rw [hal] at this; exact this
    | some x => exact Or.inr rfl

theorem Restored.of_heap {a : Nat} {al : Dict F} {s s' : State F} (hh : ∀ r < s.next, s'.heap r = s.heap r)
    (hr : ∀ pid r, s.pools.get? pid = some r → r < s.next) : Restored a al s s' := by
  intro pid r hp
  rw [hh r (hr pid r hp)]; exact Or.inl rfl

/-! ### Copying and drafting pools -/

/-- copies are new objects with the contents of the originals -/
theorem copyPools_spec {n : Nat} {a : Nat} {ids : List Nat} : ∀ (l : List (Nat × Ref)) (b s : State F), Core n s → Planned a ids b s →
    (∀ e ∈ l, e.2 < s.next) →
    Core n (copyPools s l).1 ∧ Planned a ids b (copyPools s l).1 ∧
    (copyPools s l).1.idSeq = s.idSeq ∧ (∀ r < s.next, (copyPools s l).1.heap r = s.heap r) ∧
    (copyPools s l).2.keys = l.map Prod.fst ∧
    (copyPools s l).2.vals = List.range' s.next l.length ∧
    (copyPools s l).1.next = s.next + l.length ∧
    ∀ e ∈ (copyPools s l).2, ∃ r, (e.1, r) ∈ l ∧ (copyPools s l).1.heap e.2 = s.heap r
  | [], b, s, h, hp, _ => by
    refine ⟨h, hp, rfl, fun _ _ => rfl, rfl, rfl, rfl, ?_⟩
    simp [copyPools]
  | (pid, r) :: t, b, s, h, hp, hl => by
    have h' := h.alloc (s.heap r) (h.delNodup r)
    have hp' := hp.alloc (s.heap r)
    have ht : ∀ e ∈ t, e.2 < (s.alloc (s.heap r)).next := fun e he =>
      Nat.lt_succ_of_lt (hl e (List.mem_cons_of_mem _ he))
    obtain ⟨c1, c2, c3, c4, c5, c6, c7, c8⟩ := copyPools_spec t b (s.alloc (s.heap r)) h' hp' ht
    have hold : ∀ r' < s.next, (s.alloc (s.heap r)).heap r' = s.heap r' := fun r' hr' =>
      Function.update_of_ne (Nat.ne_of_lt hr') _ _
    have hnew : (s.alloc (s.heap r)).heap s.next = s.heap r := Function.update_self _ _ _
    simp only [copyPools]
    refine ⟨c1, c2, c3, ?_, ?_, ?_, ?_, ?_⟩
    · intro r' hr'
      rw [c4 r' (Nat.lt_succ_of_lt hr'), hold r' hr']
    · simp only [Dict.keys, List.map_cons] at c5 ⊢; rw [c5]
    · simp only [Dict.vals, List.map_cons, List.length_cons, List.range'_succ] at c6 ⊢; rw [c6]; rfl
    · rw [c7]; simp only [State.alloc, List.length_cons]; omega
    · rintro e he
      rcases List.mem_cons.1 he with rfl | he
      · refine ⟨r, List.mem_cons_self, ?_⟩
        rw [c4 s.next (Nat.lt_succ_self _), hnew]
      · obtain ⟨r', hr', hh⟩ := c8 e he
        refine ⟨r', List.mem_cons_of_mem _ hr', ?_⟩
        rw [hh, hold r' (hl _ (List.mem_cons_of_mem _ hr'))]

theorem delegators_rework (rs : RS F) (q c : F) (p : Pool F) (m : F) : ((reworkPool rs q c p).setMargin m).delegators = p.delegators := rfl
theorem id_rework (rs : RS F) (q c : F) (p : Pool F) (m : F) : ((reworkPool rs q c p).setMargin m).id = p.id := rfl
theorem owner_rework (rs : RS F) (q c : F) (p : Pool F) (m : F) : ((reworkPool rs q c p).setMargin m).owner = p.owner := rfl

/-- the copies are reworked one by one; all margins were precomputed -/
theorem reworkPools_spec {n : Nat} {a : Nat} {ids : List Nat} (me : Agent F) (q c : F) (margins : List F) :
    ∀ (l : List (Nat × Ref)) (i : Nat) (b s : State F), Core n s → Planned a ids b s → (∀ e ∈ l, b.next ≤ e.2) →
    (∀ pid r, s.pools.get? pid = some r → r < b.next) →
    (l.map Prod.snd).Nodup → i + l.length ≤ margins.length →
    ∃ s', reworkPools me q c margins s i l = .ok s' ∧ Core n s' ∧ Planned a ids b s' ∧ s'.idSeq = s.idSeq ∧ s'.next = s.next ∧
      (∀ r, (∀ e ∈ l, e.2 ≠ r) → s'.heap r = s.heap r) ∧
      ∀ e ∈ l, ∃ m ∈ margins, s'.heap e.2 = (reworkPool b.rs q c (s.heap e.2)).setMargin m
  | [], i, b, s, h, hp, _, _, _, _ => ⟨s, rfl, h, hp, rfl, rfl, fun _ _ => rfl, by simp⟩
  | (pid, r) :: t, i, b, s, h, hp, hl, hpr, hnd, hlen => by
    simp only [List.map_cons, List.nodup_cons] at hnd
    simp only [List.length_cons] at hlen
    have hi : i < margins.length := by omega
    have hmg : margins[i]? = some margins[i] := List.getElem?_eq_getElem hi
    set p := (reworkPool s.rs q c (s.heap r)).setMargin margins[i] with hpdef
    have hbr : b.next ≤ r := hl _ List.mem_cons_self
    have h' : Core n (s.setPool r p) := h.setPool_draft (fun pid' hp' => by have := hpr _ _ hp'; omega) p (h.delNodup r)
    have hp' : Planned a ids b (s.setPool r p) := hp.setPool hbr p
    obtain ⟨s', e1, c1, c2, c3, c4, c5, c6⟩ := reworkPools_spec me q c margins t (i + 1) b (s.setPool r p) h' hp'
      (fun e he => hl e (List.mem_cons_of_mem _ he)) hpr hnd.2 (by omega)
    have hrt : ∀ e ∈ t, e.2 ≠ r := fun e he hr => hnd.1 (List.mem_map.2 ⟨e, he, hr⟩)
    refine ⟨s', ?_, c1, c2, c3, c4, ?_, ?_⟩
    · simp only [reworkPools, marginAt, hmg]; exact e1
    · intro r' hr'
      rw [c5 r' (fun e he => hr' e (List.mem_cons_of_mem _ he))]
      exact Function.update_of_ne (fun h => hr' _ List.mem_cons_self h.symm) _ _
    · rintro e he
      rcases List.mem_cons.1 he with rfl | he
      · refine ⟨margins[i], List.getElem_mem hi, ?_⟩
        rw [c5 r hrt]
        simp only [State.setPool, Function.update_self, hpdef, hp.rs]
      · obtain ⟨m, hm, hh⟩ := c6 e he
        refine ⟨m, hm, ?_⟩
        rw [hh]
        simp only [State.setPool]
        rw [Function.update_of_ne (hrt e he)]

/-- a newly drafted pool -/
def freshPool (rs : RS F) (q c : F) (owner pid : Nat) (m : F) : Pool F :=
  (Pool.create pid c q owner rs (decide (q ≥ rs.sat q))).setMargin m

theorem Dict.set_of_not_mem {V : Type} {d : Dict V} {k : Nat} (h : k ∉ d.keys) (v : V) : d.set k v = d ++ [(k, v)] := by
  induction d with
  | nil => rfl
  | cons e t ih =>
    obtain ⟨k', v'⟩ := e
    simp only [Dict.keys, List.map_cons, List.mem_cons, not_or] at h
    simp only [Dict.set, if_neg (Ne.symm h.1), List.cons_append]
    rw [ih h.2]

/-- new pools get fresh ids and are new objects -/
theorem draftPools_spec {n : Nat} {a : Nat} {ids : List Nat} (me : Agent F) (q c : F) (margins : List F) :
    ∀ (cnt i : Nat) (b s : State F) (owned : Dict Ref), Core n s → Planned a ids b s → (∀ k ∈ owned.keys, k ≤ s.idSeq) → owned.keys.Nodup →
    i + cnt ≤ margins.length →
    ∃ s' new, draftPools me q c margins cnt s i owned = .ok (s', owned ++ new) ∧ Core n s' ∧ Planned a ids b s' ∧
      s.next ≤ s'.next ∧ s.idSeq ≤ s'.idSeq ∧ (owned ++ new).keys.Nodup ∧ new.length = cnt ∧
      (∀ r < s.next, s'.heap r = s.heap r) ∧
      ∀ e ∈ new, s.idSeq < e.1 ∧ e.1 ≤ s'.idSeq ∧ s.next ≤ e.2 ∧ e.2 < s'.next ∧
        ∃ m ∈ margins, s'.heap e.2 = freshPool b.rs q c me.id e.1 m
  | 0, i, b, s, owned, h, hp, _, hnd, _ => by
    refine ⟨s, [], by simp [draftPools], h, hp, le_rfl, le_rfl, by simpa using hnd, rfl, fun _ _ => rfl, by simp⟩
  | cnt + 1, i, b, s, owned, h, hp, hk, hnd, hlen => by
    have hi : i < margins.length := by omega
    have hmg : margins[i]? = some margins[i] := List.getElem?_eq_getElem hi
    have hfresh : s.idSeq + 1 ∉ owned.keys := fun hm => by have := hk _ hm; omega
    set s₁ : State F := { s with idSeq := s.idSeq + 1 } with hs₁
    have h1 : Core n s₁ := h.nextId (Nat.le_succ _)
    have hp1 : Planned a ids b s₁ := hp.nextId (Nat.le_succ _)
    set p := freshPool s.rs q c me.id (s.idSeq + 1) margins[i] with hpd
    have h2 := h1.alloc p (by simp [hpd, freshPool, Pool.create, Pool.setMargin, Pool.setDesirability, Pool.setProfit, Dict.keys])
    have hp2 := hp1.alloc p
    have hnd' : (owned.set (s.idSeq + 1) s.next).keys.Nodup := Dict.nodup_set hnd _ _
    have hk' : ∀ k ∈ (owned.set (s.idSeq + 1) s.next).keys, k ≤ (s₁.alloc p).idSeq := by
      intro k hkm
      rcases (Dict.keys_set _ _ _ _).1 hkm with rfl | hkm
      · exact le_rfl
      · exact (hk k hkm).trans (Nat.le_succ _)
    obtain ⟨s', new, e1, c1, c2, c3, c4, c5, c6, c7, c8⟩ := draftPools_spec me q c margins cnt (i + 1) b (s₁.alloc p)
      (owned.set (s.idSeq + 1) s.next) h2 hp2 hk' hnd' (by omega)
    rw [Dict.set_of_not_mem hfresh] at e1 c5
    have hn : (s₁.alloc p).next = s.next + 1 := rfl
    have hq : (s₁.alloc p).idSeq = s.idSeq + 1 := rfl
    refine ⟨s', (s.idSeq + 1, s.next) :: new, ?_, c1, c2, by omega, by omega, by simpa using c5, by simp [c6], ?_, ?_⟩
    · simp only [draftPools, marginAt, hmg]
      rw [List.append_assoc] at e1
      rw [← Dict.set_of_not_mem hfresh] at *
      exact e1
    · intro r hr
      rw [c7 r (by omega)]
      exact Function.update_of_ne (Nat.ne_of_lt hr) _ _
    · intro e he
      rcases List.mem_cons.1 he with rfl | he
      · refine ⟨by simp, by omega, le_rfl, by omega, margins[i], List.getElem_mem hi, ?_⟩
        rw [c7 s.next (by omega)]
        simp only [State.alloc, hs₁, Function.update_self, hpd, hp.rs]
      · obtain ⟨d1, d2, d3, d4, d5⟩ := c8 e he
        exact ⟨by omega, d2, by omega, d4, d5⟩

end RSE
