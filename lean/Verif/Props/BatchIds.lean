import Verif.Props.Batch

/-!
# C56, C71: what the execution ids and the rows of a batch run say
-/

namespace RSE.Props

/-! ## C56: execution ids -/

/-- a value as Python prints it -/
def printed : Val → Text
  | .int i => (toString i).toList
  | .text t => t
  | .other t => t

theorem str_eq_printed (v : Val) : v.str = printed v := by
  cases v with
  | int i =>
    cases i with
    | ofNat n =>
      change strNat n = (toString n).toList
      simp [strNat, Nat.toString_eq_repr, Nat.repr]
    | negSucc n =>
      change '-' :: strNat (n + 1) = (Int.repr (.negSucc n)).toList
      simp [strNat, Int.repr, Nat.repr]
  | text t => rfl
  | other t => rfl

/-- the texts with dashes between them -/
def dashed (ts : List Text) : Text := (ts.intersperse ['-']).flatten

theorem joinDash_eq : ∀ ts : List Text, joinDash ts = dashed ts
  | [] => rfl
  | [t] => by simp [joinDash, dashed]
  | t :: u :: ts => by
    rw [joinDash, joinDash_eq (u :: ts)]
    simp [dashed]

/-- is it a list of values over which the batch run ranges? -/
def varies : Param → Prop
  | .many _ => True
  | _ => False

instance (p : Param) : Decidable (varies p) := by cases p <;> unfold varies <;> infer_instance

/-- the entries of a combination for the parameters that vary -/
def varying (params : List (Text × Param)) (combo : Kw) : Kw :=
  ((params.zip combo).filter (fun e => decide (varies e.1.2))).map (fun e => e.2)

theorem filter_varying {params : List (Text × Param)} (hp : (params.map Prod.fst).Nodup) {combo : Kw} (h : IsCombination params combo) :
    combo.filter (fun e => e.1 ∉ (makeModelKwargs params).2) = varying params combo := by
  have key : ∀ (ps : List (Text × Param)) (c : Kw), (∀ p ∈ ps, p ∈ params) → IsCombination ps c →
      c.filter (fun e => e.1 ∉ (makeModelKwargs params).2) = varying ps c := by
    intro ps c hsub hc
    induction hc with
    | nil => rfl
    | @cons p e ps c hd _ ih =>
      have ih' := ih (fun q hq => hsub q (List.mem_cons_of_mem _ hq))
      have hiff : e.1 ∉ (makeModelKwargs params).2 ↔ varies p.2 := by
        have hpm := hsub p List.mem_cons_self
        rw [C55_fixed, hd.1]
        have uniq : ∀ q, (p.1, q) ∈ params → q = p.2 := fun q hq =>
          congrArg Prod.snd (List.inj_on_of_nodup_map hp hq hpm rfl)
        obtain ⟨name, v⟩ := p
        cases v with
        | str t => simp only [varies, iff_false, not_not]; exact Or.inl ⟨t, hpm⟩
        | scalar v => simp only [varies, iff_false, not_not]; exact Or.inr ⟨v, hpm⟩
        | many vs =>
          simp only [varies, iff_true]
          rintro (⟨t, ht⟩ | ⟨t, ht⟩)
          · cases uniq _ ht
          · cases uniq _ ht
      rw [List.filter_cons, varying, List.zip_cons_cons, List.filter_cons]
      by_cases hv : varies p.2
      · rw [if_pos (by simpa using hiff.2 hv), if_pos (by simpa using hv), ih']; rfl
      · rw [if_neg (by simpa using fun h => hv (hiff.1 h)), if_neg (by simpa using hv), ih']; rfl
  exact key params combo (fun p hp => hp) h

theorem batch_execution_id (params : List (Text × Param)) (hp : (params.map Prod.fst).Nodup) (hseed : seedName ∉ params.map Prod.fst)
    (iterations : Nat) (initialSeed : Int) (j : Nat) (r : Kw) (hr : (batchKwargs params iterations initialSeed)[j]? = some r) :
    ∃ combo, (makeModelKwargs params).1[j / iterations]? = some combo ∧ r.get? executionIdName = some (.text (dashed
      ((varying params combo).map (fun e => e.1 ++ "-".toList ++ printed e.2) ++
        ["seed-".toList ++ (toString (initialSeed + (j % iterations : Nat))).toList]))) := by
  simp only [batchKwargs, List.getElem?_mapIdx, Option.map_eq_some_iff, seededKwargs] at hr
  obtain ⟨kw, hkw, rfl⟩ := hr
  obtain ⟨combo, hc, _, rfl⟩ := (getElem?_flatMap_map iterations
    (fun (kw : Kw) (i : Nat) => kw.set seedName (.int (initialSeed + (i : Int)))) _ _ _).1 hkw
  refine ⟨combo, hc, ?_⟩
  have hcomb := ((kwargs_grid params hp).1 combo).1 (List.mem_of_getElem? hc)
  have hk : seedName ∉ Kw.keys combo := by rw [combination_keys hcomb]; exact hseed
  have hfix : seedName ∉ (makeModelKwargs params).2 := by
    rw [C55_fixed]
    rintro (⟨t, h⟩ | ⟨t, h⟩) <;> exact hseed (List.mem_map.2 ⟨_, h, rfl⟩)
  rw [get?_set_self]
  congr 2
  rw [batchExecutionId, joinDash_eq, set_new hk, List.filter_append, filter_varying hp hcomb, List.map_append]
  congr 2
  · exact List.map_congr_left (fun e _ => by rw [str_eq_printed]; simp)
  · rw [List.filter_cons, if_pos (by simpa using hfix)]
    simp only [List.filter_nil, List.map_cons, List.map_nil, str_eq_printed, printed, seedName]
    simp

/-- C56.  The execution id of the `j`-th run of a batch consists of 'name-value' for each parameter that varies, in the order of the parameters, and for the
seed, with dashes between them.  (The seed must not be one of the parameters; batch-run.py:69-70 removes it.) -/
theorem C56_execution_id (params : List (Text × Param)) (hp : (params.map Prod.fst).Nodup) (hseed : "seed".toList ∉ params.map Prod.fst)
    (iterations : Nat) (initialSeed : Int) (j : Nat) (r : Kw) (hr : (batchKwargs params iterations initialSeed)[j]? = some r) :
    ∃ combo, (makeModelKwargs params).1[j / iterations]? = some combo ∧ r.get? "execution_id".toList = some (.text (dashed
      ((varying params combo).map (fun e => e.1 ++ "-".toList ++ printed e.2) ++
        ["seed-".toList ++ (toString (initialSeed + (j % iterations : Nat))).toList]))) :=
  batch_execution_id params hp hseed iterations initialSeed j r hr

/-- the execution ids of a batch in which `k` and the cost vary -/
example : (batchKwargs [("n".toList, .scalar (.int 100)), ("k".toList, .many [.int 10, .int (-2)]), ("s".toList, .str "flat".toList),
      ("c".toList, .many [.other "1e-05".toList])] 2 7).map (fun r => r.get? executionIdName) =
    ["k-10-c-1e-05-seed-7", "k-10-c-1e-05-seed-8", "k--2-c-1e-05-seed-7", "k--2-c-1e-05-seed-8"].map (fun t => some (.text t.toList)) := by
  decide +kernel

/-! ## C71: the contents of the rows -/

theorem get?_fold (l : Kw) (hl : (Kw.keys l).Nodup) : ∀ (d : Kw) (k : Text),
    Kw.get? (l.foldl (fun d e => Kw.set d e.1 e.2) d) k = (Kw.get? l k).or (Kw.get? d k) := by
  induction l with
  | nil => intro d k; rfl
  | cons e l ih =>
    intro d k
    obtain ⟨k', v⟩ := e
    simp only [Kw.keys, List.map_cons, List.nodup_cons] at hl
    rw [List.foldl_cons, ih hl.2, Kw.get?]
    split
    · rename_i h
      subst h
      have hn : Kw.get? l k' = none := by
        have : k' ∉ Kw.keys l := hl.1
        clear ih hl
        induction l with
        | nil => rfl
        | cons e l ih =>
          simp only [Kw.keys, List.map_cons, List.mem_cons, not_or] at this
          rw [Kw.get?, if_neg (fun h => this.1 h.symm)]
          exact ih this.2
      rw [hn, get?_set_self]; rfl
    · rename_i h
      rw [get?_set_ne _ _ (fun e => h e.symm)]

theorem get?_filter (fixed : List Text) (d : Kw) (k : Text) :
    Kw.get? (d.filter (fun e => e.1 ∉ fixed)) k = if k ∈ fixed then none else Kw.get? d k := by
  induction d with
  | nil => simp [Kw.get?]
  | cons e d ih =>
    obtain ⟨k', v⟩ := e
    rw [List.filter_cons]
    by_cases h : k' ∈ fixed
    · rw [if_neg (by simpa using h), ih, Kw.get?]
      by_cases hk : k' = k
      · subst hk; rw [if_pos h, if_pos h]
      · rw [if_neg hk]
    · rw [if_pos (by simpa using h), Kw.get?, ih, Kw.get?]
      by_cases hk : k' = k
      · subst hk; simp [h]
      · simp [hk]

theorem keys_nodup_fold (l : Kw) : ∀ d : Kw, (Kw.keys d).Nodup → (Kw.keys (l.foldl (fun d e => Kw.set d e.1 e.2) d)).Nodup := by
  induction l with
  | nil => intro d h; exact h
  | cons e l ih =>
    intro d h
    refine ih _ ?_
    rw [keys_set]
    split
    · exact h
    · rename_i hn
      exact List.nodup_append.2 ⟨h, by simp, fun a ha b hb => by
        rw [List.mem_singleton] at hb; subst hb; exact fun e => hn (e ▸ ha)⟩

theorem batch_nodup (params : List (Text × Param)) (hp : (params.map Prod.fst).Nodup) (iterations : Nat) (initialSeed : Int) (r : Kw)
    (hr : r ∈ batchKwargs params iterations initialSeed) : (Kw.keys r).Nodup := by
  obtain ⟨j, hj⟩ := List.getElem?_of_mem hr
  simp only [batchKwargs, List.getElem?_mapIdx, Option.map_eq_some_iff, seededKwargs] at hj
  obtain ⟨kw, hkw, rfl⟩ := hj
  obtain ⟨combo, hc, _, rfl⟩ := (getElem?_flatMap_map iterations
    (fun (kw : Kw) (i : Nat) => kw.set seedName (.int (initialSeed + (i : Int)))) _ _ _).1 hkw
  have hn : (Kw.keys combo).Nodup := by rw [combination_keys (((kwargs_grid params hp).1 combo).1 (List.mem_of_getElem? hc))]; exact hp
  exact keys_nodup_fold [(seedName, _), (seqIdName, _), (executionIdName, _)] combo hn

theorem mem_keys_iff (d : Kw) (k : Text) : k ∈ Kw.keys d ↔ (Kw.get? d k).isSome := by
  induction d with
  | nil => simp [Kw.keys, Kw.get?]
  | cons e d ih =>
    obtain ⟨k', v⟩ := e
    rw [Kw.get?]
    simp only [Kw.keys, List.map_cons, List.mem_cons] at ih ⊢
    split
    · rename_i h; simp [h]
    · rename_i h; rw [← ih]; simp [show ¬k = k' from fun e => h e.symm]

/-- C71.  What a row of the aggregate results says: nothing about the parameters that were the same for all runs; for every other column the metric with that
name; else the argument of the run with that name; else, in the column 'Step', the step; there are no other columns, and no column occurs twice. -/
theorem C71_contents (params : List (Text × Param)) (hp : (params.map Prod.fst).Nodup) (iterations : Nat) (initialSeed : Int) (r : Kw)
    (hr : r ∈ batchKwargs params iterations initialSeed) (step : Nat) (metrics : Kw) (hm : (Kw.keys metrics).Nodup) :
    (Kw.keys (resultRow (makeModelKwargs params).2 step r metrics)).Nodup ∧
    ∀ name,
      ((∃ t, (name, Param.str t) ∈ params) ∨ (∃ v, (name, Param.scalar v) ∈ params) →
        Kw.get? (resultRow (makeModelKwargs params).2 step r metrics) name = none) ∧
      (¬((∃ t, (name, Param.str t) ∈ params) ∨ (∃ v, (name, Param.scalar v) ∈ params)) →
        Kw.get? (resultRow (makeModelKwargs params).2 step r metrics) name =
          if name ∈ Kw.keys metrics then metrics.get? name
          else if name ∈ Kw.keys r then r.get? name
          else if name = "Step".toList then some (.int step) else none) := by
  have hn := batch_nodup params hp iterations initialSeed r hr
  unfold resultRow
  generalize "Step".toList = stepName
  constructor
  · rw [keys_filter]
    exact (keys_nodup_fold _ _ (by simp [Kw.keys])).filter _
  · intro name
    rw [get?_filter, List.foldl_append, get?_fold _ hm, get?_fold _ hn]
    have hfix := C55_fixed params name
    refine ⟨fun h => if_pos (hfix.2 h), fun h => ?_⟩
    · rw [if_neg (fun hc => h (hfix.1 hc))]
      simp only [mem_keys_iff]
      cases h1 : Kw.get? metrics name with
      | some v => simp
      | none =>
        cases h2 : Kw.get? r name with
        | some v => simp
        | none =>
          simp only [Option.none_or, Kw.get?, Option.isSome_none, Bool.false_eq_true, if_false]
          by_cases h3 : stepName = name
          · rw [if_pos h3, if_pos h3.symm]
          · rw [if_neg h3, if_neg (fun e => h3 e.symm)]

/-- the rows of two runs -/
example : ((batchKwargs batchDemo 1 7).map (fun r => resultRow (makeModelKwargs batchDemo).2 5 r [("Pool count".toList, .int 3)])).map
      (fun row => row.map (fun e => (String.ofList e.1, String.ofList (printed e.2)))) =
    [[("Step", "5"), ("k", "10"), ("seed", "7"), ("seq_id", "1"), ("execution_id", "k-10-seed-7"), ("Pool count", "3")],
     [("Step", "5"), ("k", "20"), ("seed", "7"), ("seq_id", "2"), ("execution_id", "k-20-seed-7"), ("Pool count", "3")]] := by decide +kernel

end RSE.Props
