import Verif.Lemmas.Keep
import Verif.Model.Ranks
import Verif.Model.Init
import Mathlib.Algebra.Order.Field.Rat

/-!
# C14, C16: ranks and the pools that are kept
-/

set_option linter.unusedSectionVars false

namespace RSE.Props

section keep
variable {F : Type} [LinearOrder F] [Zero F] [One F] [Add F] [Sub F] [Mul F] [Div F] [Neg F] [NatCast F] [FSum F]

/-- pool `p` with id `i` is better than pool `q` with id `j`: more desirable; or as desirable with a higher potential profit; or also
equal in that and with more stake; or equal in all three and older (smaller id) -/
def Better (p : Pool F) (i : Nat) (q : Pool F) (j : Nat) : Prop :=
  q.des < p.des ∨ (p.des = q.des ∧ (q.pp < p.pp ∨ (p.pp = q.pp ∧ (q.stake < p.stake ∨ (p.stake = q.stake ∧ i < j)))))

theorem better_of_key {heap : Ref → Pool F} {i j : Nat} {r q : Ref} (h : keepKey heap (j, q) < keepKey heap (i, r)) :
    Better (heap r) i (heap q) j := by
  unfold keepKey at h
  simp only [Prod.Lex.toLex_lt_toLex] at h
  unfold Better
  rcases h with h | ⟨h1, h | ⟨h2, h | ⟨h3, h⟩⟩⟩
  · exact Or.inl h
  · exact Or.inr ⟨h1.symm, Or.inl h⟩
  · exact Or.inr ⟨h1.symm, Or.inr ⟨h2.symm, Or.inl h⟩⟩
  · exact Or.inr ⟨h1.symm, Or.inr ⟨h2.symm, Or.inr ⟨h3.symm, by omega⟩⟩⟩

/-- C16.  An operator that shrinks to `m` pools keeps exactly `m` of its pools, as new objects that are copies of the old ones, and
every pool it keeps is better than every pool it drops - whatever the iteration order of the set of ids. -/
theorem C16_keeps_the_best (s : State F) (σ : Strategy F) (hnd : σ.owned.keys.Nodup)
    (hown : ∀ pid r, σ.owned.get? pid = some r → r < s.next) {ord : List Nat → List Nat} (hord : ∀ l, (ord l).Perm l)
    {m : Nat} (hm : m < σ.owned.length) :
    ∃ s' d, determinePoolsToKeep ord s σ m = .ok (s', d) ∧ d.length = m ∧ d.keys.Nodup ∧ d.vals.Nodup ∧
      (∀ pid r', d.get? pid = some r' → s.next ≤ r' ∧ ∃ r, σ.owned.get? pid = some r ∧ s'.heap r' = s.heap r) ∧
      (∀ r < s.next, s'.heap r = s.heap r) ∧
      (∀ i r j q, σ.owned.get? i = some r → σ.owned.get? j = some q → d.contains i = true → d.contains j = false →
        Better (s.heap r) i (s.heap q) j) := by
  obtain ⟨es, h1, h2, h3⟩ := mapM_getE (d := σ.owned) (ord (topPoolIds s.heap σ.owned m))
    (fun i hi => topPoolIds_sub _ _ _ i ((hord _).mem_iff.1 hi))
  obtain ⟨c1, c2, c3, c4, c5⟩ := copyPools_copies es s (fun e he => hown _ _ (h3 e he))
  have hlen : es.length = m := by
    have : (es.map Prod.fst).length = (ord (topPoolIds s.heap σ.owned m)).length := by rw [h2]
    rw [List.length_map, (hord _).length_eq, topPoolIds_length _ _ (by omega)] at this
    exact this
  have hkn : (copyPools s es).2.keys.Nodup := by
    rw [c2, h2]; exact (hord _).nodup_iff.2 (topPoolIds_nodup _ hnd _)
  have hmem : ∀ i, i ∈ (copyPools s es).2.keys ↔ i ∈ topPoolIds s.heap σ.owned m := by
    intro i; rw [c2, h2]; exact (hord _).mem_iff
  refine ⟨(copyPools s es).1, (copyPools s es).2, ?_, ?_, hkn, ?_, ?_, c1, ?_⟩
  · unfold determinePoolsToKeep
    rw [if_pos hm]
    simp only [h1]
    rfl
  · have : (copyPools s es).2.keys.length = es.length := by rw [c2, List.length_map]
    rw [← hlen, ← this, Dict.keys, List.length_map]
  · rw [c3]; exact List.nodup_range'
  · intro pid r' hg
    have hm' := Dict.mem_of_get? hg
    obtain ⟨r, hr, hh⟩ := c5 _ hm'
    have hv : r' ∈ (copyPools s es).2.vals := List.mem_map.2 ⟨_, hm', rfl⟩
    rw [c3, List.mem_range'_1] at hv
    exact ⟨hv.1, r, h3 _ hr, hh⟩
  · intro i r j q hi hj hci hcj
    refine better_of_key (topPoolIds_best s.heap hnd m hi hj ?_ ?_)
    · exact (hmem i).1 (Dict.contains_iff.1 hci)
    · intro hjm
      have := Dict.contains_iff.2 ((hmem j).2 hjm)
      rw [this] at hcj; cases hcj

/-- C16.  An operator that does not shrink keeps (copies of) all its pools. -/
theorem C16_keeps_all (s : State F) (σ : Strategy F) (hnd : σ.owned.keys.Nodup)
    (hown : ∀ pid r, σ.owned.get? pid = some r → r < s.next) (ord : List Nat → List Nat) {m : Nat} (hm : σ.owned.length ≤ m) :
    ∃ s' d, determinePoolsToKeep ord s σ m = .ok (s', d) ∧ d.keys = σ.owned.keys ∧
      (∀ pid r', d.get? pid = some r' → s.next ≤ r' ∧ ∃ r, σ.owned.get? pid = some r ∧ s'.heap r' = s.heap r) ∧
      (∀ r < s.next, s'.heap r = s.heap r) := by
  obtain ⟨c1, c2, c3, c4, c5⟩ := copyPools_copies σ.owned s (fun e he => hown _ _ (Dict.get?_of_mem hnd he))
  refine ⟨(copyPools s σ.owned).1, (copyPools s σ.owned).2, ?_, c2, ?_, c1⟩
  · unfold determinePoolsToKeep
    rw [if_neg (by omega)]
  · intro pid r' hg
    have hm' := Dict.mem_of_get? hg
    obtain ⟨r, hr, hh⟩ := c5 _ hm'
    have hv : r' ∈ (copyPools s σ.owned).2.vals := List.mem_map.2 ⟨_, hm', rfl⟩
    rw [c3, List.mem_range'_1] at hv
    exact ⟨hv.1, r, Dict.get?_of_mem hnd hr, hh⟩

/-- three pools with equal desirability and potential profit -/
def keepDemo : State ℚ × Strategy ℚ :=
  let pool (i : Nat) (stake : ℚ) : Pool ℚ :=
    { id := i, cost := 0, pledge := 1/10, stake := stake, owner := 0, isPrivate := false, delegators := [], pp := 1/5, margin := 1/2,
      des := 1/10 }
  let c : Config ℚ :=
    { rs := { scheme := .cardano, k := 3, beta := 1/3, a0 := 0 }, relThr := 0, absThr := 0, extraFrac := 0, simultaneous := false,
      people := [(1/2, 0, .nonMyopic)], totalStake := 1 }
  ((((initState c).alloc (pool 7 (1/5))).alloc (pool 4 (1/4))).alloc (pool 9 (1/5)), { owned := [(7, 0), (4, 1), (9, 2)] })

/-- among equally desirable pools the larger one (4) and then the older one (7) is kept; pool 9 is dropped -/
example : keepDemo.2.owned.keys.Nodup ∧ (∀ e ∈ keepDemo.2.owned, e.2 < keepDemo.1.next) ∧
    (determinePoolsToKeep List.reverse keepDemo.1 keepDemo.2 2).toOption.map (fun x => x.2) = some [(7, 3), (4, 4)] := by
  decide +kernel

end keep

/-! ### C14 -/
section ranks
variable {F : Type} [LinearOrder F]

/-- `a` is to be ranked before `b`: the first of the dictionaries in which they differ gives `a` the larger value, or they do not
differ and `a` is the smaller id -/
def RankBefore : List (Dict F) → Nat → Nat → Prop
  | [], a, b => a < b
  | d :: ds, a, b => ∃ x y, d.get? a = some x ∧ d.get? b = some y ∧ (y < x ∨ (x = y ∧ RankBefore ds a b))

theorem values_ok {key : Nat} : ∀ {ds : List (Dict F)}, (∀ e ∈ ds, key ∈ e.keys) →
    ds.mapM (fun e => e.getE key) = .ok (ds.filterMap (fun e => e.get? key))
  | [], _ => rfl
  | d :: ds, h => by
    obtain ⟨x, hx⟩ := Dict.mem_keys_iff.1 (h d List.mem_cons_self)
    rw [List.mapM_cons, Dict.getE_of hx, values_ok (fun e he => h e (List.mem_cons_of_mem _ he)),
      List.filterMap_cons_some (f := fun e : Dict F => e.get? key) hx]
    rfl

theorem before_iff {a b : Nat} : ∀ {ds : List (Dict F)}, (∀ e ∈ ds, a ∈ e.keys) → (∀ e ∈ ds, b ∈ e.keys) →
    (RankBefore ds a b ↔ (toLex (ds.filterMap (fun e => e.get? b), -(b : Int)) : RankTuple F) <
      toLex (ds.filterMap (fun e => e.get? a), -(a : Int)))
  | [], _, _ => by
    simp [RankBefore, Prod.Lex.toLex_lt_toLex]
  | d :: ds, ha, hb => by
    obtain ⟨x, hx⟩ := Dict.mem_keys_iff.1 (ha d List.mem_cons_self)
    obtain ⟨y, hy⟩ := Dict.mem_keys_iff.1 (hb d List.mem_cons_self)
    have ih := before_iff (ds := ds) (fun e he => ha e (List.mem_cons_of_mem _ he)) (fun e he => hb e (List.mem_cons_of_mem _ he))
    rw [Prod.Lex.toLex_lt_toLex] at ih ⊢
    rw [List.filterMap_cons_some (f := fun e : Dict F => e.get? a) hx, List.filterMap_cons_some (f := fun e : Dict F => e.get? b) hy,
      List.cons_lt_cons_iff, List.cons.injEq]
    simp only [RankBefore, hx, hy, Option.some.injEq, ih]
    constructor
    · rintro ⟨_, _, rfl, rfl, h | ⟨rfl, h | ⟨h, h'⟩⟩⟩
      · exact Or.inl (Or.inl h)
      · exact Or.inl (Or.inr ⟨rfl, h⟩)
      · exact Or.inr ⟨⟨rfl, h⟩, h'⟩
    · intro h0
      refine ⟨x, y, rfl, rfl, ?_⟩
      rcases h0 with (h | ⟨rfl, h⟩) | ⟨⟨rfl, h⟩, h'⟩
      · exact Or.inl h
      · exact Or.inr ⟨rfl, Or.inl h⟩
      · exact Or.inr ⟨rfl, Or.inr ⟨h, h'⟩⟩

theorem mapM_ok_map {α β : Type} {f : α → Py β} {g : α → β} : ∀ {l : List α}, (∀ a ∈ l, f a = .ok (g a)) → l.mapM f = .ok (l.map g)
  | [], _ => rfl
  | a :: t, h => by
    rw [List.mapM_cons, h a List.mem_cons_self, mapM_ok_map (fun b hb => h b (List.mem_cons_of_mem _ hb))]
    rfl

/-- C14.  The ranks of `calculate_ranks` are the numbers `1, …, n`, each given once, and `a` gets a smaller number than `b` exactly if
`a` has the larger value, or equal values and the larger value in the first tie-breaking dictionary that tells them apart, or is
equal there too and has the smaller id. -/
theorem C14_ranks (d : Dict F) (ties : List (Dict F)) (hnd : d.keys.Nodup) (hties : ∀ e ∈ ties, ∀ key ∈ d.keys, key ∈ e.keys) :
    ∃ ranks, calculateRanks d ties true = .ok ranks ∧ ranks.keys.Perm d.keys ∧ ranks.vals = List.range' 1 d.length ∧
      ∀ a b i j, ranks.get? a = some i → ranks.get? b = some j → (i < j ↔ RankBefore (d :: ties) a b) := by
  have hall : ∀ key ∈ d.keys, ∀ e ∈ d :: ties, key ∈ e.keys := by
    intro key hk e he
    rcases List.mem_cons.1 he with rfl | he
    · exact hk
    · exact hties e he key hk
  let tup : Nat → RankTuple F := fun key => toLex ((d :: ties).filterMap (fun e => e.get? key), -(key : Int))
  have hitems : d.keys.mapM (rankItem d ties true) = .ok (d.keys.map (fun key => (key, tup key))) := by
    refine mapM_ok_map (fun key hk => ?_)
    simp only [rankItem, values_ok (hall key hk)]
    rfl
  let items := d.keys.map (fun key => (key, tup key))
  let srt := items.insertionSort (fun a b => b.2 ≤ a.2)
  have hperm : srt.Perm items := List.perm_insertionSort _ _
  have hpw : srt.Pairwise (fun a b => b.2 ≤ a.2) := by
    have : Std.Total (fun a b : Nat × RankTuple F => b.2 ≤ a.2) := ⟨fun a b => le_total _ _⟩
    have : IsTrans (Nat × RankTuple F) (fun a b => b.2 ≤ a.2) := ⟨fun a b c h h' => le_trans h' h⟩
    exact List.pairwise_insertionSort _ _
  have hkeys : (srt.map Prod.fst).Perm d.keys := by
    have := hperm.map Prod.fst
    simpa [items, Function.comp_def] using this
  have htup : ∀ e ∈ srt, e.2 = tup e.1 ∧ e.1 ∈ d.keys := by
    intro e he
    obtain ⟨key, hk, rfl⟩ := List.mem_map.1 (hperm.mem_iff.1 he)
    exact ⟨rfl, hk⟩
  refine ⟨srt.zipIdx.map (fun e => (e.1.1, e.2 + 1)), ?_, ?_, ?_, ?_⟩
  · simp only [calculateRanks, hitems]
    rfl
  · have : Dict.keys (srt.zipIdx.map (fun e => (e.1.1, e.2 + 1))) = srt.map Prod.fst := by
      simp only [Dict.keys, List.map_map]
      rw [← List.zipIdx_map_fst 0 srt, List.map_map]
      simp
    rw [this]; exact hkeys
  · have hl : srt.length = d.length := by
      rw [hperm.length_eq]; simp [items, Dict.keys]
    simp only [Dict.vals, List.map_map, ← hl]
    apply List.ext_getElem (by simp)
    intro i h1 h2
    simp [Nat.add_comm]
  · intro a b i j ha hb
    obtain ⟨⟨⟨a', ta⟩, i'⟩, hma, hea⟩ := List.mem_map.1 (Dict.mem_of_get? ha)
    obtain ⟨⟨⟨b', tb⟩, j'⟩, hmb, heb⟩ := List.mem_map.1 (Dict.mem_of_get? hb)
    simp only [Prod.mk.injEq] at hea heb
    obtain ⟨rfl, rfl⟩ := hea
    obtain ⟨rfl, rfl⟩ := heb
    rw [List.mk_mem_zipIdx_iff_getElem?] at hma hmb
    obtain ⟨hi, hai⟩ := List.getElem?_eq_some_iff.1 hma
    obtain ⟨hj, hbj⟩ := List.getElem?_eq_some_iff.1 hmb
    obtain ⟨h1, h1'⟩ := htup _ (List.mem_of_getElem? hma)
    obtain ⟨h2, h2'⟩ := htup _ (List.mem_of_getElem? hmb)
    simp only at h1 h2 h1' h2'
    rw [before_iff (hall _ h1') (hall _ h2')]
    change _ ↔ tup b' < tup a'
    rw [← h1, ← h2]
    rw [List.pairwise_iff_getElem] at hpw
    constructor
    · intro hij
      have hle := hpw i' j' hi hj (by omega)
      rw [hai, hbj] at hle
      refine lt_of_le_of_ne hle (fun heq => ?_)
      replace heq : tb = ta := heq
      rw [h1, h2] at heq
      have : a' = b' := by
        have h3 : -(b' : Int) = -(a' : Int) := congrArg (fun t : RankTuple F => (ofLex t).2) heq
        omega
      subst this
      rw [ha] at hb
      cases hb
      omega
    · intro hlt
      by_contra hij
      rcases Nat.lt_or_ge j' i' with h | h
      · have hle := hpw j' i' hj hi h
        rw [hai, hbj] at hle
        exact absurd hlt (not_lt.2 hle)
      · have : i' = j' := by omega
        subst this
        rw [hai] at hbj
        cases hbj
        exact lt_irrefl _ hlt

/-- C14.  A key that a tie-breaking dictionary lacks raises `KeyError`. -/
theorem C14_missing_tie (d e : Dict F) (key : Nat) (hk : key ∈ d.keys) (he : key ∉ e.keys) :
    calculateRanks d [e] true = .error .key := by
  have h0 : rankItem d [e] true key = .error .key := by
    obtain ⟨x, hx⟩ := Dict.mem_keys_iff.1 hk
    simp only [rankItem, List.mapM_cons, Dict.getE_of hx, Dict.getE_none (Dict.get?_eq_none.2 he)]
    rfl
  have : ∀ l : List Nat, (∀ i ∈ l, i ∈ d.keys) → key ∈ l → l.mapM (rankItem d [e] true) = .error .key := by
    intro l
    induction l with
    | nil => intro _ h; cases h
    | cons i t ih =>
      intro hl hm
      rw [List.mapM_cons]
      by_cases hi : i ∈ e.keys
      · have hne : key ≠ i := fun h => he (h ▸ hi)
        rw [ih (fun j hj => hl j (List.mem_cons_of_mem _ hj)) ((List.mem_cons.1 hm).resolve_left hne)]
        obtain ⟨x, hx⟩ := Dict.mem_keys_iff.1 hi
        obtain ⟨y, hy⟩ := Dict.mem_keys_iff.1 (hl i List.mem_cons_self)
        simp only [rankItem, List.mapM_cons, Dict.getE_of hx, Dict.getE_of hy]
        rfl
      · obtain ⟨y, hy⟩ := Dict.mem_keys_iff.1 (hl i List.mem_cons_self)
        simp only [rankItem, List.mapM_cons, Dict.getE_of hy, Dict.getE_none (Dict.get?_eq_none.2 hi)]
        rfl
  simp only [calculateRanks, this d.keys (fun _ h => h) hk]
  rfl

/-- ties decided by a second dictionary (5 before 2) and by the id (1 before 3) -/
example : (calculateRanks [(3, (7 : ℚ)), (5, 9), (1, 7), (2, 9)] [[(1, 0), (2, 4), (3, 0), (5, 6)]] true).toOption
    = some [(5, 1), (2, 2), (1, 3), (3, 4)] := by decide +kernel

end ranks

end RSE.Props
