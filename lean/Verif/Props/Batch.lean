import Verif.Model.Batch
import Verif.Props.Files
import Mathlib.Data.List.Nodup
import Mathlib.Data.List.Forall2
import Mathlib.Data.List.Perm.Basic
import Mathlib.Algebra.BigOperators.Group.List.Basic

/-!
# C55, C56, C71, C72: batch runs
-/

namespace RSE.Props

/-! ## C55 -/

theorem set_new {d : Kw} {k : Text} {v : Val} (h : k ∉ Kw.keys d) : Kw.set d k v = d ++ [(k, v)] := by
  induction d with
  | nil => rfl
  | cons e d ih =>
    obtain ⟨k', v'⟩ := e
    simp [Kw.keys] at h
    rw [Kw.set, if_neg (fun e => h.1 e.symm), ih (by simpa [Kw.keys] using h.2)]
    rfl

theorem ofPairs_eq {l : Kw} (h : (Kw.keys l).Nodup) : Kw.ofPairs l = l := by
  have key : ∀ (l d : Kw), (Kw.keys (d ++ l)).Nodup → l.foldl (fun d e => Kw.set d e.1 e.2) d = d ++ l := by
    intro l
    induction l with
    | nil => intro d _; simp
    | cons e l ih =>
      intro d h
      have hn : e.1 ∉ Kw.keys d := by
        simp only [Kw.keys, List.map_append, List.map_cons] at h ⊢
        exact fun hm => (List.nodup_append.1 h).2.2 _ hm _ List.mem_cons_self rfl
      rw [List.foldl_cons, set_new hn, ih _ (by simpa using h)]
      simp
  exact key l [] h

theorem mem_cartesian {α : Type} (ls : List (List α)) (x : List α) : x ∈ cartesian ls ↔ List.Forall₂ (fun l a => a ∈ l) ls x := by
  induction ls generalizing x with
  | nil => simp [cartesian]
  | cons l ls ih =>
    cases x with
    | nil => simp [cartesian]
    | cons a x => simp [cartesian, ih]

theorem length_cartesian {α : Type} (ls : List (List α)) : (cartesian ls).length = (ls.map List.length).prod := by
  induction ls with
  | nil => rfl
  | cons l ls ih =>
    simp only [cartesian, List.map_cons, List.prod_cons, ← ih]
    rw [List.length_flatMap]
    simp

theorem nodup_cartesian {α : Type} (ls : List (List α)) (h : ∀ l ∈ ls, l.Nodup) : (cartesian ls).Nodup := by
  induction ls with
  | nil => simp [cartesian]
  | cons l ls ih =>
    have ih' := ih (fun l hl => h l (List.mem_cons_of_mem _ hl))
    rw [cartesian, List.nodup_flatMap]
    refine ⟨fun x _ => ih'.map (fun a b e => by simpa using e), ?_⟩
    refine List.Pairwise.imp_of_mem ?_ (h l List.mem_cons_self)
    intro a b _ _ hab x hx hy
    obtain ⟨u, _, rfl⟩ := List.mem_map.1 hx
    obtain ⟨v, _, hv⟩ := List.mem_map.1 hy
    exact hab (by simp at hv; exact hv.1.symm)

/-- a combination gives every parameter, in the order of the parameters, one of its values -/
def IsCombination (params : List (Text × Param)) (kw : Kw) : Prop :=
  List.Forall₂ (fun p e => e.1 = p.1 ∧ e.2 ∈ Param.values p.2) params kw

theorem combination_keys {params : List (Text × Param)} {kw : Kw} (h : IsCombination params kw) : Kw.keys kw = params.map Prod.fst := by
  induction h with
  | nil => rfl
  | cons h _ ih => simp only [Kw.keys, List.map_cons] at ih ⊢; rw [h.1, ih]

theorem cartesian_combination (params : List (Text × Param)) (x : List (Text × Val)) :
    x ∈ cartesian (params.map (fun e => e.2.values.map (fun v => (e.1, v)))) ↔ IsCombination params x := by
  rw [mem_cartesian, List.forall₂_map_left_iff, IsCombination]
  have : (fun (p : Text × Param) (e : Text × Val) => e ∈ p.2.values.map (fun v => (p.1, v))) =
      (fun p e => e.1 = p.1 ∧ e.2 ∈ p.2.values) := by
    funext p e
    obtain ⟨k, v⟩ := e
    simp only [List.mem_map, Prod.mk.injEq, eq_iff_iff]
    constructor
    · rintro ⟨w, hw, rfl, rfl⟩; exact ⟨rfl, hw⟩
    · rintro ⟨rfl, hw⟩; exact ⟨v, hw, rfl, rfl⟩
  rw [this]

theorem kwargs_eq (params : List (Text × Param)) (hp : (params.map Prod.fst).Nodup) :
    (makeModelKwargs params).1 = cartesian (params.map (fun e => e.2.values.map (fun v => (e.1, v)))) := by
  unfold makeModelKwargs
  simp only
  conv_rhs => rw [← List.map_id (cartesian _)]
  refine List.map_congr_left (fun x hx => ?_)
  have := combination_keys ((cartesian_combination params x).1 hx)
  exact ofPairs_eq (by rw [this]; exact hp)

theorem kwargs_grid (params : List (Text × Param)) (hp : (params.map Prod.fst).Nodup) :
    (∀ kw, kw ∈ (makeModelKwargs params).1 ↔ IsCombination params kw) ∧
    (makeModelKwargs params).1.length = (params.map (fun p => p.2.values.length)).prod ∧
    ((∀ p ∈ params, p.2.values.Nodup) → (makeModelKwargs params).1.Nodup) := by
  rw [kwargs_eq params hp]
  refine ⟨cartesian_combination params, ?_, ?_⟩
  · rw [length_cartesian, List.map_map]
    congr 1
    exact List.map_congr_left (fun p _ => by simp)
  · intro h
    refine nodup_cartesian _ (fun l hl => ?_)
    obtain ⟨p, hpm, rfl⟩ := List.mem_map.1 hl
    exact (h p hpm).map (fun a b e => by simpa using e)

/-- The values given for a parameter: a string counts as one value and is not taken apart, and so does anything that cannot be iterated over. -/
def given : Param → List Val
  | .str t => [.text t]
  | .scalar v => [v]
  | .many vs => vs

theorem values_given : Param.values = given := by
  funext p
  cases p <;> rfl

/-- C55.  The batch run covers the grid: what `_make_model_kwargs` returns are exactly the ways to bind every parameter, in order, to one of the values given
for it; their number is the product of the numbers of values, and none occurs twice if no parameter lists a value twice. -/
theorem C55_grid (params : List (Text × Param)) (hp : (params.map Prod.fst).Nodup) :
    (∀ kw, kw ∈ (makeModelKwargs params).1 ↔ List.Forall₂ (fun p e => e.1 = p.1 ∧ e.2 ∈ given p.2) params kw) ∧
    (makeModelKwargs params).1.length = (params.map (fun p => (given p.2).length)).prod ∧
    ((∀ p ∈ params, (given p.2).Nodup) → (makeModelKwargs params).1.Nodup) := by
  rw [← values_given]
  exact kwargs_grid params hp

/-- A string or a scalar is a fixed parameter with one value; only iterables vary. -/
theorem C55_fixed (params : List (Text × Param)) (name : Text) : name ∈ (makeModelKwargs params).2 ↔
    (∃ t, (name, Param.str t) ∈ params) ∨ ∃ v, (name, Param.scalar v) ∈ params := by
  unfold makeModelKwargs
  simp only [List.mem_map, List.mem_filter]
  constructor
  · rintro ⟨⟨k, p⟩, ⟨hm, hf⟩, rfl⟩
    cases p with
    | str t => exact Or.inl ⟨t, hm⟩
    | scalar v => exact Or.inr ⟨v, hm⟩
    | many vs => simp [Param.fixed] at hf
  · rintro (⟨t, h⟩ | ⟨v, h⟩)
    · exact ⟨_, ⟨h, rfl⟩, rfl⟩
    · exact ⟨_, ⟨h, rfl⟩, rfl⟩

/-- A parameter with an empty list of values means that nothing is run at all. -/
theorem C55_empty (params : List (Text × Param)) (hp : (params.map Prod.fst).Nodup) (name : Text) (h : (name, Param.many []) ∈ params) :
    (makeModelKwargs params).1 = [] := by
  refine List.eq_nil_iff_forall_not_mem.2 (fun kw hkw => ?_)
  have hc := ((kwargs_grid params hp).1 kw).1 hkw
  clear hkw hp
  induction hc with
  | nil => cases h
  | cons hd _ ih =>
    rcases List.mem_cons.1 h with rfl | h
    · simp [Param.values] at hd
    · exact ih h

/-! ## C56 -/

theorem getElem?_flatMap_map {α β : Type} (it : Nat) (g : α → Nat → β) : ∀ (l : List α) (j : Nat) (b : β),
    (l.flatMap (fun a => (List.range it).map (g a)))[j]? = some b ↔ ∃ a, l[j / it]? = some a ∧ 0 < it ∧ b = g a (j % it) := by
  intro l
  induction l with
  | nil => intro j b; simp
  | cons a l ih =>
    intro j b
    rw [List.flatMap_cons, List.getElem?_append]
    by_cases hj : j < it
    · rw [if_pos (by simpa using hj)]
      simp [hj, Nat.div_eq_of_lt hj, Nat.mod_eq_of_lt hj, eq_comm, show 0 < it by omega]
    · rw [if_neg (by simpa using hj), ih]
      simp only [List.length_map, List.length_range]
      rcases Nat.eq_zero_or_pos it with rfl | hit
      · simp
      · obtain ⟨m, rfl⟩ := Nat.exists_eq_add_of_le (Nat.le_of_not_lt hj)
        rw [Nat.add_sub_cancel_left, Nat.add_div_left m hit, Nat.add_mod_left]
        simp

theorem get?_set_self (d : Kw) (k : Text) (v : Val) : Kw.get? (Kw.set d k v) k = some v := by
  induction d with
  | nil => simp [Kw.set, Kw.get?]
  | cons e d ih =>
    obtain ⟨k', v'⟩ := e
    rw [Kw.set]
    split
    · rename_i h; simp [Kw.get?, h]
    · rename_i h; rw [Kw.get?, if_neg h, ih]

theorem get?_set_ne (d : Kw) {k k' : Text} (v : Val) (h : k' ≠ k) : Kw.get? (Kw.set d k v) k' = Kw.get? d k' := by
  induction d with
  | nil => simp [Kw.set, Kw.get?, h.symm]
  | cons e d ih =>
    obtain ⟨k₀, v₀⟩ := e
    rw [Kw.set]
    split
    · rename_i he; simp [Kw.get?, he, h.symm]
    · rename_i he
      rw [Kw.get?, ih]
      rfl

theorem batch_runs_named (params : List (Text × Param)) (iterations : Nat) (initialSeed : Int) :
    (batchKwargs params iterations initialSeed).length = (makeModelKwargs params).1.length * iterations ∧
    ∀ (j : Nat) (r : Kw), (batchKwargs params iterations initialSeed)[j]? = some r →
      ∃ combo, (makeModelKwargs params).1[j / iterations]? = some combo ∧
        r.get? seqIdName = some (.int (j + 1)) ∧
        r.get? seedName = some (.int (initialSeed + (j % iterations : Nat))) ∧
        ∀ name, name ≠ seqIdName → name ≠ seedName → name ≠ executionIdName → r.get? name = combo.get? name := by
  refine ⟨?_, ?_⟩
  · simp only [batchKwargs, List.length_mapIdx, seededKwargs]
    induction (makeModelKwargs params).1 with
    | nil => simp
    | cons a l ih =>
      rw [List.flatMap_cons, List.length_append, ih]
      simp [Nat.add_mul, Nat.add_comm]
  · intro j r hr
    simp only [batchKwargs, List.getElem?_mapIdx, Option.map_eq_some_iff, seededKwargs] at hr
    obtain ⟨kw, hkw, rfl⟩ := hr
    obtain ⟨combo, hc, _, rfl⟩ := (getElem?_flatMap_map iterations
      (fun (kw : Kw) (i : Nat) => kw.set seedName (.int (initialSeed + (i : Int)))) _ _ _).1 hkw
    refine ⟨combo, hc, ?_, ?_, ?_⟩
    · rw [get?_set_ne _ _ (by decide), get?_set_self]
    · rw [get?_set_ne _ _ (by decide), get?_set_ne _ _ (by decide), get?_set_self]
    · intro name h1 h2 h3
      rw [get?_set_ne _ _ h3, get?_set_ne _ _ h1, get?_set_ne _ _ h2]

/-- C56.  A batch run consists of (number of combinations) × iterations runs.  The `j`-th one has sequence id `j + 1`, uses combination
`j / iterations` for all other arguments, and seed `initial_seed + j % iterations`. -/
theorem C56_runs (params : List (Text × Param)) (iterations : Nat) (initialSeed : Int) :
    (batchKwargs params iterations initialSeed).length = (makeModelKwargs params).1.length * iterations ∧
    ∀ (j : Nat) (r : Kw), (batchKwargs params iterations initialSeed)[j]? = some r →
      ∃ combo, (makeModelKwargs params).1[j / iterations]? = some combo ∧
        r.get? "seq_id".toList = some (.int (j + 1)) ∧
        r.get? "seed".toList = some (.int (initialSeed + (j % iterations : Nat))) ∧
        ∀ name, name ≠ "seq_id".toList → name ≠ "seed".toList → name ≠ "execution_id".toList → r.get? name = combo.get? name :=
  batch_runs_named params iterations initialSeed

theorem batch_no_clash (params : List (Text × Param)) (iterations : Nat) (initialSeed : Int) (i j : Nat) (r r' : Kw)
    (hi : (batchKwargs params iterations initialSeed)[i]? = some r) (hj : (batchKwargs params iterations initialSeed)[j]? = some r')
    (hne : i ≠ j) :
    r.get? seqIdName ≠ r'.get? seqIdName ∧
    ∀ (s s' : Nat) (id id' : Text) (args args' : List (Text × ArgVal)), r.get? seqIdName = some (.int s) → r'.get? seqIdName = some (.int s') →
      executionId s id args ≠ executionId s' id' args' := by
  obtain ⟨_, _, h1, _⟩ := (batch_runs_named params iterations initialSeed).2 i r hi
  obtain ⟨_, _, h2, _⟩ := (batch_runs_named params iterations initialSeed).2 j r' hj
  have hns : r.get? seqIdName ≠ r'.get? seqIdName := by
    rw [h1, h2]
    intro h
    injection h with h
    injection h with h
    omega
  refine ⟨hns, fun s s' id id' args args' hs hs' => C59_directories_differ _ _ _ _ _ _ (fun he => hns ?_)⟩
  rw [hs, hs', he]

/-- Different runs of a batch have different sequence ids and so different output directories. -/
theorem C56_no_clash (params : List (Text × Param)) (iterations : Nat) (initialSeed : Int) (i j : Nat) (r r' : Kw)
    (hi : (batchKwargs params iterations initialSeed)[i]? = some r) (hj : (batchKwargs params iterations initialSeed)[j]? = some r')
    (hne : i ≠ j) :
    r.get? "seq_id".toList ≠ r'.get? "seq_id".toList ∧
    ∀ (s s' : Nat) (id id' : Text) (args args' : List (Text × ArgVal)), r.get? "seq_id".toList = some (.int s) → r'.get? "seq_id".toList = some (.int s') →
      executionId s id args ≠ executionId s' id' args' :=
  batch_no_clash params iterations initialSeed i j r r' hi hj hne

theorem batch_seeds (params : List (Text × Param)) (iterations : Nat) (initialSeed : Int) (i j : Nat) (r r' : Kw)
    (hi : (batchKwargs params iterations initialSeed)[i]? = some r) (hj : (batchKwargs params iterations initialSeed)[j]? = some r')
    (hne : i ≠ j) (hsame : i / iterations = j / iterations) : r.get? seedName ≠ r'.get? seedName := by
  obtain ⟨_, _, _, h1, _⟩ := (batch_runs_named params iterations initialSeed).2 i r hi
  obtain ⟨_, _, _, h2, _⟩ := (batch_runs_named params iterations initialSeed).2 j r' hj
  rw [h1, h2]
  intro h
  injection h with h
  injection h with h
  have e1 := Nat.div_add_mod i iterations
  have e2 := Nat.div_add_mod j iterations
  rw [hsame] at e1
  omega

/-- Runs of the same combination have different seeds. -/
theorem C56_seeds (params : List (Text × Param)) (iterations : Nat) (initialSeed : Int) (i j : Nat) (r r' : Kw)
    (hi : (batchKwargs params iterations initialSeed)[i]? = some r) (hj : (batchKwargs params iterations initialSeed)[j]? = some r')
    (hne : i ≠ j) (hsame : i / iterations = j / iterations) : r.get? "seed".toList ≠ r'.get? "seed".toList :=
  batch_seeds params iterations initialSeed i j r r' hi hj hne hsame

/-! ## C71 -/

theorem keys_set (d : Kw) (k : Text) (v : Val) : Kw.keys (Kw.set d k v) = if k ∈ Kw.keys d then Kw.keys d else Kw.keys d ++ [k] := by
  by_cases h : k ∈ Kw.keys d
  · rw [if_pos h]
    induction d with
    | nil => cases h
    | cons e d ih =>
      obtain ⟨k', v'⟩ := e
      rw [Kw.set]
      split
      · rfl
      · rename_i hne
        have : k ∈ Kw.keys d := by
          rcases List.mem_cons.1 h with h | h
          · exact absurd h.symm hne
          · exact h
        simp only [Kw.keys, List.map_cons] at ih ⊢
        rw [ih this]
  · rw [if_neg h, set_new h]
    simp [Kw.keys]

theorem keys_foldl_set (l l' : Kw) (h : Kw.keys l = Kw.keys l') : ∀ d d' : Kw, Kw.keys d = Kw.keys d' →
    Kw.keys (l.foldl (fun d e => Kw.set d e.1 e.2) d) = Kw.keys (l'.foldl (fun d e => Kw.set d e.1 e.2) d') := by
  induction l generalizing l' with
  | nil =>
    intro d d' hd
    cases l' with
    | nil => exact hd
    | cons => cases h
  | cons e l ih =>
    intro d d' hd
    cases l' with
    | nil => cases h
    | cons e' l' =>
      simp only [Kw.keys, List.map_cons, List.cons.injEq] at h
      exact ih l' h.2 _ _ (by rw [keys_set, keys_set, h.1, hd])

theorem keys_filter (fixed : List Text) (d : Kw) : Kw.keys (d.filter (fun e => e.1 ∉ fixed)) = (Kw.keys d).filter (fun k => k ∉ fixed) := by
  unfold Kw.keys
  rw [List.filter_map]
  rfl

theorem batch_keys (params : List (Text × Param)) (hp : (params.map Prod.fst).Nodup) (iterations : Nat) (initialSeed : Int) (r r' : Kw)
    (hr : r ∈ batchKwargs params iterations initialSeed) (hr' : r' ∈ batchKwargs params iterations initialSeed) : Kw.keys r = Kw.keys r' := by
  have key : ∀ r ∈ batchKwargs params iterations initialSeed, ∃ (d : Kw) (v v' v'' : Val), Kw.keys d = params.map Prod.fst ∧
      r = ((d.set seedName v).set seqIdName v').set executionIdName v'' := by
    intro r hr
    obtain ⟨j, hj⟩ := List.getElem?_of_mem hr
    simp only [batchKwargs, List.getElem?_mapIdx, Option.map_eq_some_iff, seededKwargs] at hj
    obtain ⟨kw, hkw, rfl⟩ := hj
    obtain ⟨combo, hc, _, rfl⟩ := (getElem?_flatMap_map iterations
      (fun (kw : Kw) (i : Nat) => kw.set seedName (.int (initialSeed + (i : Int)))) _ _ _).1 hkw
    exact ⟨combo, _, _, _, combination_keys (((kwargs_grid params hp).1 combo).1 (List.mem_of_getElem? hc)), rfl⟩
  obtain ⟨d, v1, v2, v3, h, rfl⟩ := key r hr
  obtain ⟨d', w1, w2, w3, h', rfl⟩ := key r' hr'
  simp only [keys_set, h, h']

/-- C71.  The rows of the aggregate results have the same columns in the same order, whichever runs they come from; so the header, written by whichever run
finishes first, fits all of them. -/
theorem C71_columns (params : List (Text × Param)) (hp : (params.map Prod.fst).Nodup) (iterations : Nat) (initialSeed : Int) (r r' : Kw)
    (hr : r ∈ batchKwargs params iterations initialSeed) (hr' : r' ∈ batchKwargs params iterations initialSeed)
    (fixed : List Text) (step step' : Nat) (metrics metrics' : Kw) (hm : Kw.keys metrics = Kw.keys metrics') :
    Kw.keys (resultRow fixed step r metrics) = Kw.keys (resultRow fixed step' r' metrics') := by
  have hk : Kw.keys (r ++ metrics) = Kw.keys (r' ++ metrics') := by
    have := batch_keys params hp iterations initialSeed r r' hr hr'
    simp only [Kw.keys, List.map_append] at this hm ⊢
    rw [this, hm]
  unfold resultRow
  rw [keys_filter, keys_filter]
  exact congrArg _ (keys_foldl_set _ _ hk _ _ rfl)

/-! ## C72 -/

theorem runNumbers_nodup (vs : List (List Val)) : ∀ (id : Nat) (seen : List (List Val)), (∀ v ∈ vs, v ∉ seen) → vs.Nodup →
    runNumbers id seen vs = (List.range' id vs.length).map (fun i => (i, 0)) := by
  induction vs with
  | nil => intro _ _ _ _; rfl
  | cons v vs ih =>
    intro id seen hs hn
    rw [List.nodup_cons] at hn
    rw [runNumbers, ih (id + 1) (v :: seen) ?_ hn.2, List.count_eq_zero_of_not_mem (hs v List.mem_cons_self)]
    · simp [List.range'_succ]
    · intro w hw hm
      rcases List.mem_cons.1 hm with rfl | hm
      · exact hn.1 hw
      · exact hs w (List.mem_cons_of_mem _ hw) hm

theorem get?_of_vals {d d' : Kw} (hk : Kw.keys d = Kw.keys d') (hv : d.map Prod.snd = d'.map Prod.snd) : d = d' := by
  induction d generalizing d' with
  | nil => cases d' with
    | nil => rfl
    | cons => cases hk
  | cons e d ih => cases d' with
    | nil => cases hk
    | cons e' d' =>
      simp only [Kw.keys, List.map_cons, List.cons.injEq] at hk hv
      rw [ih hk.2 hv.2, Prod.ext hk.1 hv.1]

/-- C72.  The column 'iteration' of the results is 0 for every run, however many iterations there are and in whatever order the runs finish: the
counter is indexed by all arguments, among which is the sequence id, so that no two runs are counted as the same. -/
theorem C72_iteration_always_zero (params : List (Text × Param)) (hp : (params.map Prod.fst).Nodup) (iterations : Nat) (initialSeed : Int)
    (vs : List (List Val)) (hvs : vs.Perm ((batchKwargs params iterations initialSeed).map (fun r => r.map Prod.snd))) :
    runNumbers 0 [] vs = (List.range' 0 vs.length).map (fun i => (i, 0)) := by
  refine runNumbers_nodup vs 0 [] (by simp) ?_
  rw [hvs.nodup_iff]
  have hnd : (batchKwargs params iterations initialSeed).Nodup := by
    rw [List.nodup_iff_getElem?_ne_getElem?]
    intro i j hij hj he
    have hi' : (batchKwargs params iterations initialSeed)[i]? = some (batchKwargs params iterations initialSeed)[i] :=
      List.getElem?_eq_getElem (by omega)
    exact (batch_no_clash params iterations initialSeed i j _ _ hi' (he ▸ hi') (by omega)).1 rfl
  exact hnd.map_on (fun r hr r' hr' he => get?_of_vals (batch_keys params hp iterations initialSeed r r' hr hr') he)

/-- a batch with two values of k, a fixed n and two iterations -/
def batchDemo : List (Text × Param) :=
  [("n".toList, .scalar (.int 100)), ("k".toList, .many [.int 10, .int 20]), ("source".toList, .str "flat".toList)]

example : (batchDemo.map Prod.fst).Nodup ∧ (makeModelKwargs batchDemo).1.length = 2 ∧
    (batchKwargs batchDemo 2 7).map (fun r => (r.get? "k".toList, r.get? seedName, r.get? seqIdName)) =
      [(some (.int 10), some (.int 7), some (.int 1)), (some (.int 10), some (.int 8), some (.int 2)),
       (some (.int 20), some (.int 7), some (.int 3)), (some (.int 20), some (.int 8), some (.int 4))] := by decide +kernel

example : (batchKwargs batchDemo 2 7).map (fun r => r.get? executionIdName) =
    ["k-10-seed-7", "k-10-seed-8", "k-20-seed-7", "k-20-seed-8"].map (fun t => some (.text t.toList)) := by decide +kernel

end RSE.Props
