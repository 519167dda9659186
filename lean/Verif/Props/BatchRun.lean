import Verif.Model.BatchRun
import Verif.Props.BatchIds

set_option linter.unusedSectionVars false

/-! # C114: the results of a batch run do not depend on the number of processes -/

namespace RSE.Props

/-- What a row of the results says of step `step` of the run with arguments `kw`, whose metrics at that step were `metrics`, if its data were the `i`-th to arrive: under each
name the metric, else the argument, else the step, else the number `i`, and 0 as the iteration; nothing else, and nothing twice. -/
structure RowOf (i : Nat) (kw : Kw) (step : Int) (metrics : Kw) (row : Kw) : Prop where
  once : (row.map Prod.fst).Nodup
  entries : ∀ name, Kw.get? row name =
    if name ∈ metrics.map Prod.fst then metrics.get? name
    else if name ∈ kw.map Prod.fst then kw.get? name
    else if name = "Step".toList then some (.int step)
    else if name = "RunId".toList then some (.int i)
    else if name = "iteration".toList then some (.int 0) else none

/-- a row without its RunId -/
def anonymous (row : Kw) : Kw := row.filter (fun e => e.1 ≠ "RunId".toList)

theorem withParentDir_names (path : Text) (ps : List (Text × Param)) (h : (ps.map Prod.fst).Nodup) : ((withParentDir path ps).map Prod.fst).Nodup := by
  have key : ∀ ps : List (Text × Param), ∀ n, n ∈ (withParentDir path ps).map Prod.fst ↔ n = parentDirName ∨ n ∈ ps.map Prod.fst := by
    intro ps
    induction ps with
    | nil => intro n; simp [withParentDir]
    | cons e ps ih =>
      obtain ⟨m, p⟩ := e
      intro n
      unfold withParentDir
      split
      · rename_i hm; subst hm; simp
      · simp only [List.map_cons, List.mem_cons, ih]; tauto
  induction ps with
  | nil => simp [withParentDir]
  | cons e ps ih =>
    obtain ⟨m, p⟩ := e
    simp only [List.map_cons, List.nodup_cons] at h
    unfold withParentDir
    split
    · simpa using h
    · rename_i hm
      simp only [List.map_cons, List.nodup_cons, key]
      exact ⟨by rintro (h' | h'); exacts [hm h', h.1 h'], ih h.2⟩

/-- the rows of a run whose data are the `i`-th to arrive -/
def blockOf (i : Nat) (kw : Kw) (sampled : List (Int × Kw)) : List Kw :=
  (runData kw sampled).map (fun d => Kw.update [(runIdName, .int i), (iterationName, .int (0 : Nat))] d)

theorem gatherRuns_ok {run : Kw → Py (List (Int × Kw))} {f : Kw → List (Int × Kw)} : ∀ (l : List Kw) (id : Nat) (seen : List (List Val)),
    (∀ kw ∈ l, kw.map Prod.snd ∉ seen) → (l.map (fun kw => kw.map Prod.snd)).Nodup → (∀ kw ∈ l, run kw = .ok (f kw)) →
    gatherRuns run id seen l = .ok ((l.zipIdx id).flatMap (fun e => blockOf e.2 e.1 (f e.1))) := by
  intro l
  induction l with
  | nil => intro id seen _ _ _; rfl
  | cons kw l ih =>
    intro id seen hs hn hr
    simp only [List.map_cons, List.nodup_cons] at hn
    have hc : seen.count (kw.map Prod.snd) = 0 := List.count_eq_zero.2 (hs kw (by simp))
    have h2 := ih (id + 1) (kw.map Prod.snd :: seen) (fun kw' h' => by
      simp only [List.mem_cons, not_or]
      exact ⟨fun e => hn.1 (e ▸ List.mem_map.2 ⟨kw', h', rfl⟩), hs kw' (by simp [h'])⟩) hn.2 (fun kw' h' => hr kw' (by simp [h']))
    simp only [gatherRuns, hr kw (by simp), h2, hc]
    rfl

theorem gatherRuns_err {run : Kw → Py (List (Int × Kw))} : ∀ (l : List Kw) (id : Nat) (seen : List (List Val)),
    (∃ kw ∈ l, ∃ e, run kw = .error e) → ∃ kw ∈ l, ∃ e, run kw = .error e ∧ gatherRuns run id seen l = .error e := by
  intro l
  induction l with
  | nil => rintro _ _ ⟨_, h, _⟩; cases h
  | cons kw l ih =>
    rintro id seen ⟨kw', h', e, he⟩
    cases hk : run kw with
    | error e' => exact ⟨kw, by simp, e', hk, by simp only [gatherRuns, hk]; rfl⟩
    | ok d =>
      have h'' : kw' ∈ l := by
        rcases List.mem_cons.1 h' with rfl | h
        · rw [hk] at he; cases he
        · exact h
      obtain ⟨kw₂, hm, e₂, he₂, hg⟩ := ih (id + 1) (kw.map Prod.snd :: seen) ⟨kw', h'', e, he⟩
      exact ⟨kw₂, by simp [hm], e₂, he₂, by simp only [gatherRuns, hk, hg]; rfl⟩

theorem batch_values_nodup (params : List (Text × Param)) (hp : (params.map Prod.fst).Nodup) (iterations : Nat) (initialSeed : Int) :
    ((batchKwargs params iterations initialSeed).map (fun r => r.map Prod.snd)).Nodup := by
  have hnd : (batchKwargs params iterations initialSeed).Nodup := by
    rw [List.nodup_iff_getElem?_ne_getElem?]
    intro i j hij hj he
    have hi' : (batchKwargs params iterations initialSeed)[i]? = some (batchKwargs params iterations initialSeed)[i] :=
      List.getElem?_eq_getElem (by omega)
    exact (batch_no_clash params iterations initialSeed i j _ _ hi' (he ▸ hi') (by omega)).1 rfl
  exact hnd.map_on (fun r hr r' hr' he => get?_of_vals (batch_keys params hp iterations initialSeed r r' hr hr') he)

theorem names_differ : [runIdName, iterationName].Nodup := by decide

theorem rowOf_block {i : Nat} {kw : Kw} (hkw : (Kw.keys kw).Nodup) : ∀ {sampled : List (Int × Kw)}, (∀ e ∈ sampled, (e.2.map Prod.fst).Nodup) →
    List.Forall₂ (fun e row => RowOf i kw e.1 e.2 row) sampled (blockOf i kw sampled) := by
  intro sampled
  induction sampled with
  | nil => intro _; exact .nil
  | cons e sampled ih =>
    intro hs
    obtain ⟨step, metrics⟩ := e
    refine List.Forall₂.cons ?_ (ih (fun e he => hs e (by simp [he])))
    have hm : (Kw.keys metrics).Nodup := hs (step, metrics) (by simp)
    have h1 : (Kw.keys (Kw.update [(stepName, .int step)] kw)).Nodup := keys_nodup_fold _ _ (by simp [Kw.keys])
    have h2 : (Kw.keys ((Kw.update [(stepName, .int step)] kw).update metrics)).Nodup := keys_nodup_fold _ _ h1
    refine ⟨keys_nodup_fold _ _ ?_, fun name => ?_⟩
    · exact names_differ
    · change Kw.get? (Kw.update [(runIdName, .int i), (iterationName, .int (0 : Nat))] ((Kw.update [(stepName, .int step)] kw).update metrics)) name = _
      unfold Kw.update at h2 ⊢
      rw [get?_fold _ h2, get?_fold _ hm, get?_fold _ hkw]
      have k1 := mem_keys_iff metrics name
      have k2 := mem_keys_iff kw name
      unfold Kw.keys at k1 k2
      simp only [k1, k2, Kw.get?]
      change _ = if _ then _ else if _ then _ else if name = stepName then _ else if name = runIdName then _ else if name = iterationName then _ else _
      cases h1 : Kw.get? metrics name with
      | some v => simp
      | none =>
        cases h2 : Kw.get? kw name with
        | some v => simp
        | none =>
          simp only [Option.none_or, Option.isSome_none, Bool.false_eq_true, if_false]
          simp only [eq_comm (a := name) (b := stepName), eq_comm (a := name) (b := runIdName), eq_comm (a := name) (b := iterationName)]
          by_cases h3 : stepName = name
          · simp only [if_pos h3, Option.some_or]
          · simp only [if_neg h3, Option.none_or]
            rfl

theorem anonymous_set (d : Kw) (k : Text) (v : Val) : anonymous (Kw.set d k v) = if k = "RunId".toList then anonymous d else Kw.set (anonymous d) k v := by
  generalize hR : "RunId".toList = R
  have key : ∀ d : Kw, (Kw.set d k v).filter (fun e => e.1 ≠ R) = if k = R then d.filter (fun e => e.1 ≠ R) else Kw.set (d.filter (fun e => e.1 ≠ R)) k v := by
    intro d
    induction d with
    | nil => by_cases h : k = R <;> simp [Kw.set, h]
    | cons e d ih =>
      obtain ⟨k', v'⟩ := e
      rw [Kw.set]
      by_cases hk : k' = k
      · subst hk
        by_cases h : k' = R <;> simp [Kw.set, h]
      · rw [if_neg hk]
        by_cases h' : k' = R
        · simpa [h'] using ih
        · by_cases h : k = R
          · simpa [h', h] using ih
          · simp only [h, if_false] at ih
            simp [h', h, Kw.set, hk]
            simpa using ih
  have := key d
  unfold anonymous
  rw [hR]
  exact this

theorem anonymous_update (e : Kw) : ∀ d d' : Kw, anonymous d = anonymous d' → anonymous (Kw.update d e) = anonymous (Kw.update d' e) := by
  induction e with
  | nil => intro d d' h; exact h
  | cons x e ih =>
    intro d d' h
    refine ih _ _ ?_
    rw [anonymous_set, anonymous_set, h]

theorem anonymous_block (i j : Nat) (kw : Kw) (sampled : List (Int × Kw)) : (blockOf i kw sampled).map anonymous = (blockOf j kw sampled).map anonymous := by
  unfold blockOf
  rw [List.map_map, List.map_map]
  exact List.map_congr_left (fun d _ => anonymous_update d _ _ rfl)

theorem flatMap_anonymous (f : Kw → List (Int × Kw)) : ∀ (l : List Kw) (i : Nat),
    ((l.zipIdx i).flatMap (fun e => blockOf e.2 e.1 (f e.1))).map anonymous = l.flatMap (fun kw => (blockOf 0 kw (f kw)).map anonymous) := by
  intro l
  induction l with
  | nil => intro i; rfl
  | cons kw l ih =>
    intro i
    rw [List.zipIdx_cons, List.flatMap_cons, List.flatMap_cons, List.map_append, ih, anonymous_block i 0]

theorem batch_gather {run : Kw → Py (List (Int × Kw))} {order : List Kw → List Kw} (ho : ∀ l, (order l).Perm l) (path : Text) {params : List (Text × Param)}
    (hp : (params.map Prod.fst).Nodup) (iterations : Nat) (initialSeed : Int) {f : Kw → List (Int × Kw)}
    (hf : ∀ kw ∈ batchKwargs (withParentDir path params) iterations initialSeed, run kw = .ok (f kw)) :
    customBatchRun run order path params iterations initialSeed =
      .ok (((order (batchKwargs (withParentDir path params) iterations initialSeed)).zipIdx 0).flatMap (fun e => blockOf e.2 e.1 (f e.1))) := by
  refine gatherRuns_ok _ 0 [] (by simp) ?_ (fun kw h => hf kw ((ho _).mem_iff.1 h))
  rw [((ho _).map _).nodup_iff]
  exact batch_values_nodup _ (withParentDir_names path params hp) iterations initialSeed

/-- C114, the results.  If a batch run succeeds, each of its runs has contributed the rows of the steps that were collected for it, in their order, and there are no other
rows; the rows of a run stand together, and their RunId is the number of runs whose data arrived before. -/
theorem C114_results {run : Kw → Py (List (Int × Kw))} {order : List Kw → List Kw} (ho : ∀ l, (order l).Perm l) (path : Text) {params : List (Text × Param)}
    (hp : (params.map Prod.fst).Nodup) (iterations : Nat) (initialSeed : Int)
    (hm : ∀ kw sampled, run kw = .ok sampled → ∀ e ∈ sampled, (e.2.map Prod.fst).Nodup) {results : List Kw}
    (h : customBatchRun run order path params iterations initialSeed = .ok results) :
    ∃ blocks : List (List Kw), results = blocks.flatten ∧ blocks.length = (batchKwargs (withParentDir path params) iterations initialSeed).length ∧
      ∀ (i : Nat) (kw : Kw), (order (batchKwargs (withParentDir path params) iterations initialSeed))[i]? = some kw →
        ∃ sampled block, run kw = .ok sampled ∧ blocks[i]? = some block ∧ List.Forall₂ (fun e row => RowOf i kw e.1 e.2 row) sampled block := by
  by_cases hall : ∀ kw ∈ batchKwargs (withParentDir path params) iterations initialSeed, ∃ d, run kw = .ok d
  · have hf : ∀ kw ∈ batchKwargs (withParentDir path params) iterations initialSeed, run kw = .ok ((run kw).toOption.getD []) := by
      intro kw hk
      obtain ⟨d, hd⟩ := hall kw hk
      rw [hd]; rfl
    rw [batch_gather ho path hp iterations initialSeed hf] at h
    cases h
    refine ⟨((order (batchKwargs (withParentDir path params) iterations initialSeed)).zipIdx 0).map (fun e => blockOf e.2 e.1 ((run e.1).toOption.getD [])), by rw [List.flatMap_def],
      by rw [List.length_map, List.length_zipIdx, (ho _).length_eq], fun i kw hi => ?_⟩
    have hmem := (ho _).mem_iff.1 (List.mem_of_getElem? hi)
    refine ⟨_, blockOf i kw ((run kw).toOption.getD []), hf kw hmem, by simp [List.getElem?_zipIdx, hi], ?_⟩
    exact rowOf_block (batch_nodup _ (withParentDir_names path params hp) iterations initialSeed kw hmem) (hm kw _ (hf kw hmem))
  · exfalso
    push Not at hall
    obtain ⟨kw, hk, hd⟩ := hall
    obtain ⟨_, _, _, _, he⟩ := gatherRuns_err (run := run) (order (batchKwargs (withParentDir path params) iterations initialSeed)) 0 []
      ⟨kw, (ho _).mem_iff.2 hk, by cases hr : run kw with | error e => exact ⟨e, rfl⟩ | ok d => exact absurd hr (hd d)⟩
    unfold customBatchRun at h
    rw [he] at h; cases h

/-- C114, the number of processes.  In whatever orders the data of the runs arrive, the results are the same up to their order and their RunIds: with several processes nothing is
lost, repeated or changed.  A batch run fails under one order iff it does under any other, namely iff one of its runs raises, and then with the exception of such a run. -/
theorem C114_processes {run : Kw → Py (List (Int × Kw))} {order order' : List Kw → List Kw} (ho : ∀ l, (order l).Perm l) (ho' : ∀ l, (order' l).Perm l) (path : Text)
    {params : List (Text × Param)} (hp : (params.map Prod.fst).Nodup) (iterations : Nat) (initialSeed : Int) :
    (∀ results results', customBatchRun run order path params iterations initialSeed = .ok results →
      customBatchRun run order' path params iterations initialSeed = .ok results' → (results.map anonymous).Perm (results'.map anonymous)) ∧
    ((∃ e, customBatchRun run order path params iterations initialSeed = .error e) ↔
      ∃ kw ∈ batchKwargs (withParentDir path params) iterations initialSeed, ∃ e, run kw = .error e) ∧
    ∀ e, customBatchRun run order path params iterations initialSeed = .error e →
      ∃ kw ∈ batchKwargs (withParentDir path params) iterations initialSeed, run kw = .error e := by
  by_cases hall : ∃ kw ∈ batchKwargs (withParentDir path params) iterations initialSeed, ∃ e, run kw = .error e
  · obtain ⟨kw, hk, e, he⟩ := hall
    obtain ⟨kw', hk', e', he', hg⟩ := gatherRuns_err (run := run) (order (batchKwargs (withParentDir path params) iterations initialSeed)) 0 []
      ⟨kw, (ho _).mem_iff.2 hk, e, he⟩
    change customBatchRun run order path params iterations initialSeed = .error e' at hg
    rw [hg]
    exact ⟨fun _ _ h => (by cases h), ⟨fun _ => ⟨kw, hk, e, he⟩, fun _ => ⟨e', rfl⟩⟩, fun e h => by cases h; exact ⟨kw', (ho _).mem_iff.1 hk', he'⟩⟩
  · have hf : ∀ kw ∈ batchKwargs (withParentDir path params) iterations initialSeed, run kw = .ok ((run kw).toOption.getD []) := by
      intro kw hk
      cases hr : run kw with
      | ok d => rfl
      | error e => exact absurd ⟨kw, hk, e, hr⟩ hall
    rw [batch_gather ho path hp iterations initialSeed hf, batch_gather ho' path hp iterations initialSeed hf]
    refine ⟨fun r r' h h' => ?_, ⟨fun ⟨_, h⟩ => (by cases h), fun h => absurd h hall⟩, fun e h => by cases h⟩
    cases h; cases h'
    rw [flatMap_anonymous (fun kw => (run kw).toOption.getD []), flatMap_anonymous (fun kw => (run kw).toOption.getD [])]
    exact ((ho _).trans (ho' _).symm).flatMap_right _

theorem flatten_singletons {α : Type} : ∀ (bs : List (List α)), (∀ b ∈ bs, b.length = 1) → bs.flatten.map (fun a => [a]) = bs := by
  intro bs
  induction bs with
  | nil => intro _; rfl
  | cons b bs ih =>
    intro h
    obtain ⟨a, rfl⟩ := List.length_eq_one_iff.1 (h b (by simp))
    rw [List.flatten_cons, List.map_append, ih (fun b hb => h b (by simp [hb]))]
    rfl

/-- C114, as batch-run.py uses it (data_collection_period = -1, so that one step is collected per run, C37): there is one row for each run, and the rows are numbered from 0 in the
order in which the runs finished. -/
theorem C114_one_row_each {run : Kw → Py (List (Int × Kw))} {order : List Kw → List Kw} (ho : ∀ l, (order l).Perm l) (path : Text) {params : List (Text × Param)}
    (hp : (params.map Prod.fst).Nodup) (iterations : Nat) (initialSeed : Int)
    (hm : ∀ kw sampled, run kw = .ok sampled → ∀ e ∈ sampled, (e.2.map Prod.fst).Nodup) (h1 : ∀ kw sampled, run kw = .ok sampled → sampled.length = 1)
    {results : List Kw} (h : customBatchRun run order path params iterations initialSeed = .ok results) :
    results.length = (makeModelKwargs (withParentDir path params)).1.length * iterations ∧
    ∀ (i : Nat) (row : Kw), results[i]? = some row →
      ∃ kw step metrics, (order (batchKwargs (withParentDir path params) iterations initialSeed))[i]? = some kw ∧ run kw = .ok [(step, metrics)] ∧ RowOf i kw step metrics row := by
  obtain ⟨blocks, rfl, hlen, hb⟩ := C114_results ho path hp iterations initialSeed hm h
  have hall : ∀ (i : Nat) (b : List Kw), blocks[i]? = some b →
      ∃ kw step metrics row, (order (batchKwargs (withParentDir path params) iterations initialSeed))[i]? = some kw ∧ run kw = .ok [(step, metrics)] ∧
        b = [row] ∧ RowOf i kw step metrics row := by
    intro i b hi
    have hlt : i < (order (batchKwargs (withParentDir path params) iterations initialSeed)).length := by
      rw [(ho _).length_eq, ← hlen]
      exact (List.getElem?_eq_some_iff.1 hi).1
    obtain ⟨sampled, b', hr, hb', hf⟩ := hb i _ (List.getElem?_eq_getElem hlt)
    obtain ⟨⟨step, metrics⟩, rfl⟩ := List.length_eq_one_iff.1 (h1 _ _ hr)
    rw [hi] at hb'
    cases hb'
    cases hf with
    | cons h0 h2 => cases h2; exact ⟨_, step, metrics, _, List.getElem?_eq_getElem hlt, hr, rfl, h0⟩
  have hsing : ∀ b ∈ blocks, b.length = 1 := by
    intro b hb
    obtain ⟨i, hi⟩ := List.getElem?_of_mem hb
    obtain ⟨_, _, _, _, _, _, rfl, _⟩ := hall i b hi
    rfl
  have hfl := flatten_singletons blocks hsing
  have hl2 := congrArg List.length hfl
  rw [List.length_map] at hl2
  refine ⟨by rw [hl2, hlen]; exact (batch_runs_named _ iterations initialSeed).1, fun i row hrow => ?_⟩
  have hi : blocks[i]? = some [row] := by rw [← hfl, List.getElem?_map, hrow]; rfl
  obtain ⟨kw, step, metrics, row', ho', hr, he, hrow'⟩ := hall i _ hi
  cases he
  exact ⟨kw, step, metrics, ho', hr, hrow'⟩

/-- two runs, each with a row before its first and one before its last round, in two orders of arrival -/
def batchDemoRun (kw : Kw) : Py (List (Int × Kw)) := .ok [(0, [("Pool count".toList, .int 0)]), (4, [("Pool count".toList, (kw.get? "k".toList).getD (.int 0))])]

example : (batchDemo.map Prod.fst).Nodup ∧ (∀ l : List Kw, l.reverse.Perm l) ∧
    [id, List.reverse].map (fun order => (customBatchRun batchDemoRun order "output/1-x".toList batchDemo 1 7).toOption.map (fun rows => rows.map (fun row =>
      (["RunId", "iteration", "Step", "k", "seq_id", "Pool count"].map (fun n => (row.get? n.toList).map (fun v => String.ofList (printed v))))))) =
      [some [["0", "0", "0", "10", "1", "0"].map some, ["0", "0", "4", "10", "1", "10"].map some,
             ["1", "0", "0", "20", "2", "0"].map some, ["1", "0", "4", "20", "2", "20"].map some],
       some [["0", "0", "0", "20", "2", "0"].map some, ["0", "0", "4", "20", "2", "20"].map some,
             ["1", "0", "0", "10", "1", "0"].map some, ["1", "0", "4", "10", "1", "10"].map some]] :=
  ⟨by decide, fun _ => List.reverse_perm _, by decide +kernel⟩

/-- the same with one row per run, as in `C114_one_row_each` -/
def batchDemoLast (kw : Kw) : Py (List (Int × Kw)) := .ok [(4, [("Pool count".toList, (kw.get? "k".toList).getD (.int 0))])]

example : (∀ kw sampled, batchDemoLast kw = .ok sampled → sampled.length = 1 ∧ ∀ e ∈ sampled, (e.2.map Prod.fst).Nodup) ∧
    ((customBatchRun batchDemoLast List.reverse "output/1-x".toList batchDemo 2 7).toOption.getD []).map (fun row =>
      (["RunId", "k", "seed", "Pool count"].map (fun n => (row.get? n.toList).map (fun v => String.ofList (printed v))))) =
      [["0", "20", "8", "20"].map some, ["1", "20", "7", "20"].map some, ["2", "10", "8", "10"].map some, ["3", "10", "7", "10"].map some] := by
  refine ⟨fun kw sampled h => ?_, by decide +kernel⟩
  cases h
  exact ⟨rfl, fun e he => by rw [List.mem_singleton.1 he]; exact List.nodup_singleton _⟩

end RSE.Props
