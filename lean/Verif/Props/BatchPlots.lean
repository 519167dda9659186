import Verif.Model.BatchPlots
import Verif.Props.Batch
import Verif.Model.Construct
import Verif.Lemmas.PlanOk
import Mathlib.Algebra.BigOperators.Ring.List
import Mathlib.Data.List.ProdSigma
import Mathlib.Data.List.Perm.Subperm

/-!
# C88: the plots of a batch run

`rows` are the results in the order in which the runs finish (`imap_unordered`): any permutation.
-/

set_option linter.unusedSectionVars false

namespace RSE.Props

variable {F : Type} [LinearOrder F] [Zero F]

/-- the results of the runs `kws`: all runs have the metrics `names`, run `kw` the value `val kw m` for the metric `m`; they finish in any order -/
structure Finished (kws : List Kw) (names : List Text) (val : Kw → Text → F) (rows : List (Result F)) : Prop where
  perm : rows.Perm (kws.map (fun kw => ⟨kw, names.map (fun m => (m, val kw m))⟩))

theorem mapM_ok_of {α β : Type} {f : α → Py β} {g : α → β} (l : List α) (h : ∀ x ∈ l, f x = .ok (g x)) : l.mapM f = .ok (l.map g) := by
  induction l with
  | nil => rfl
  | cons a t ih =>
    rw [List.mapM_cons, h a List.mem_cons_self, ih (fun x hx => h x (List.mem_cons_of_mem _ hx))]
    rfl

theorem metric_of {names : List Text} {f : Text → F} {kw : Kw} {m : Text} (hm : m ∈ names) :
    (⟨kw, names.map (fun m => (m, f m))⟩ : Result F).metric m = .ok (f m) := by
  unfold Result.metric
  simp only
  cases hf : (names.map (fun m => (m, f m))).find? (fun e => decide (e.1 = m)) with
  | none =>
    have := List.find?_eq_none.1 hf (m, f m) (List.mem_map.2 ⟨m, hm, rfl⟩)
    simp at this
  | some e =>
    have h1 := List.find?_some hf
    have h2 := List.mem_of_find?_eq_some hf
    obtain ⟨m', -, rfl⟩ := List.mem_map.1 h2
    simp only [decide_eq_true_eq] at h1
    subst h1
    rfl

theorem Finished.metric {kws : List Kw} {names : List Text} {val : Kw → Text → F} {rows : List (Result F)} (h : Finished kws names val rows) {m : Text}
    (hm : m ∈ names) {r : Result F} (hr : r ∈ rows) : r.args ∈ kws ∧ r.metric m = .ok (val r.args m) := by
  obtain ⟨kw, hkw, rfl⟩ := List.mem_map.1 (h.perm.mem_iff.1 hr)
  exact ⟨hkw, metric_of hm⟩

theorem zip_map_self {α β : Type} (l : List α) (g : α → β) : l.zip (l.map g) = l.map (fun a => (a, g a)) := by
  induction l with
  | nil => rfl
  | cons a t ih => simp [ih]

/-- the parameter values of a run -/
def HasArg (kws : List Kw) (p : Text) : Prop := ∀ kw ∈ kws, ∃ v, kw.get? p = some v

/-- C88, scatter plots.  The plot of metric `m` over parameter `p` has one point per run with a value that is not negative, at the run's values. -/
theorem C88_scatter {kws : List Kw} {names : List Text} {val : Kw → Text → F} {rows : List (Result F)} (h : Finished kws names val rows) {p m : Text}
    (hp : HasArg kws p) (hm : m ∈ names) :
    ∃ pts, plotAggregate rows p m = .ok (.scatter p m pts) ∧
      (pts.map (fun e => (some e.1, e.2))).Perm ((kws.filter (fun kw => 0 ≤ val kw m)).map (fun kw => (kw.get? p, val kw m))) := by
  have h1 : rows.mapM (fun r => r.metric m) = .ok (rows.map (fun r => val r.args m)) := mapM_ok_of _ (fun r hr => (h.metric hm hr).2)
  have hz : rows.zip (rows.map (fun r => val r.args m)) = rows.map (fun r => (r, val r.args m)) := zip_map_self _ _
  have hk : (rows.map (fun r => (r, val r.args m))).filter (fun e => decide (0 ≤ e.2)) =
      (rows.filter (fun r => decide (0 ≤ val r.args m))).map (fun r => (r, val r.args m)) := by
    rw [List.filter_map]; rfl
  let x : Result F → Val := fun r => (r.args.get? p).getD (.int 0)
  have hx : ∀ r ∈ rows, r.args.get? p = some (x r) := by
    intro r hr
    obtain ⟨v, hv⟩ := hp _ (h.metric hm hr).1
    simp only [x, hv, Option.getD_some]
  have h2 : ((rows.filter (fun r => decide (0 ≤ val r.args m))).map (fun r => (r, val r.args m))).mapM (fun e => e.1.arg p) =
      .ok (((rows.filter (fun r => decide (0 ≤ val r.args m))).map (fun r => (r, val r.args m))).map (fun e => x e.1)) := by
    refine mapM_ok_of _ (fun e he => ?_)
    obtain ⟨r, hr, rfl⟩ := List.mem_map.1 he
    unfold Result.arg
    simp only [hx r (List.mem_filter.1 hr).1]
  refine ⟨(rows.filter (fun r => decide (0 ≤ val r.args m))).map (fun r => (x r, val r.args m)), ?_, ?_⟩
  · unfold plotAggregate
    rw [h1]
    simp only [bind, Except.bind, hz, hk, h2]
    congr 1
    rw [List.map_map, List.map_map, List.zip_map']
    rfl
  · rw [List.map_map]
    have e1 : (rows.filter (fun r => decide (0 ≤ val r.args m))).map ((fun e => (some e.1, e.2)) ∘ fun r => (x r, val r.args m)) =
        (rows.filter (fun r => decide (0 ≤ val r.args m))).map (fun r => (r.args.get? p, val r.args m)) := by
      refine List.map_congr_left (fun r hr => ?_)
      simp only [Function.comp, hx r (List.mem_filter.1 hr).1]
    rw [e1]
    refine ((h.perm.filter _).map _).trans ?_
    rw [List.filter_map, List.map_map]
    exact List.Perm.refl _

/-- the cells of a heat map, given the pairs of values -/
theorem plotHeatmap_eq {kws : List Kw} {names : List Text} {val : Kw → Text → F} {rows : List (Result F)} (h : Finished kws names val rows) {p q m : Text}
    (hp : HasArg kws p) (hq : HasArg kws q) (hm : m ∈ names) :
    ∃ cells : List ((Val × Val) × F), plotHeatmap rows p q m = (if (cells.map Prod.fst).Nodup then .ok (.heat p q m cells) else .error .value) ∧
      (cells.map (fun e => (some e.1.1, some e.1.2, e.2))).Perm (kws.map (fun kw => (kw.get? p, kw.get? q, val kw m))) := by
  let x : Text → Result F → Val := fun p r => (r.args.get? p).getD (.int 0)
  have hx : ∀ p, HasArg kws p → ∀ r ∈ rows, r.args.get? p = some (x p r) := by
    intro p hp r hr
    obtain ⟨v, hv⟩ := hp _ (h.metric hm hr).1
    simp only [x, hv, Option.getD_some]
  refine ⟨rows.map (fun r => ((x p r, x q r), val r.args m)), ?_, ?_⟩
  · unfold plotHeatmap
    rw [mapM_ok_of (g := fun r => ((x p r, x q r), val r.args m)) rows (fun r hr => ?_)]
    · simp only [bind, Except.bind]
      split <;> rfl
    · unfold Result.arg
      simp only [hx p hp r hr, hx q hq r hr, (h.metric hm hr).2, bind, Except.bind]
      rfl
  · rw [List.map_map]
    have e1 : rows.map ((fun e : (Val × Val) × F => (some e.1.1, some e.1.2, e.2)) ∘ fun r => ((x p r, x q r), val r.args m)) =
        rows.map (fun r => (r.args.get? p, r.args.get? q, val r.args m)) := by
      refine List.map_congr_left (fun r hr => ?_)
      simp only [Function.comp, hx p hp r hr, hx q hq r hr]
    rw [e1]
    refine (h.perm.map _).trans ?_
    rw [List.map_map]
    exact List.Perm.refl _

/-! ### The runs of a batch run -/

/-- the names that the batch runner sets itself do not occur among the parameters -/
def Ordinary (params : List (Text × Param)) : Prop :=
  (params.map Prod.fst).Nodup ∧ ∀ e ∈ params, e.1 ≠ "seq_id".toList ∧ e.1 ≠ "seed".toList ∧ e.1 ≠ "execution_id".toList

theorem batch_args (params : List (Text × Param)) (seed : Int) (l : List Text) (hl : ∀ p ∈ l, p ≠ seqIdName ∧ p ≠ seedName ∧ p ≠ executionIdName) :
    (batchKwargs params 1 seed).map (fun kw => l.map (fun p => kw.get? p)) = (makeModelKwargs params).1.map (fun kw => l.map (fun p => kw.get? p)) := by
  obtain ⟨h1, h2⟩ := batch_runs_named params 1 seed
  rw [Nat.mul_one] at h1
  refine List.ext_getElem? (fun j => ?_)
  rw [List.getElem?_map, List.getElem?_map]
  cases hj : (batchKwargs params 1 seed)[j]? with
  | none =>
    rw [List.getElem?_eq_none_iff] at hj
    rw [List.getElem?_eq_none_iff.2 (by rw [← h1]; exact hj)]
  | some r =>
    obtain ⟨combo, hc, -, -, hget⟩ := h2 j r hj
    rw [Nat.div_one] at hc
    rw [hc]
    simp only [Option.map_some, Option.some.injEq]
    exact List.map_congr_left (fun p hp => hget p (hl p hp).1 (hl p hp).2.1 (hl p hp).2.2)

theorem combination_get? {params : List (Text × Param)} (hn : (params.map Prod.fst).Nodup) {kw : Kw} (h : IsCombination params kw) {p : Text} {v : Param}
    (hp : (p, v) ∈ params) : ∃ x ∈ v.values, kw.get? p = some x := by
  induction h with
  | nil => cases hp
  | @cons a e params kw ha _ ih =>
    obtain ⟨k, x⟩ := e
    rw [List.map_cons, List.nodup_cons] at hn
    rcases List.mem_cons.1 hp with rfl | hp
    · refine ⟨x, ha.2, ?_⟩
      rw [Kw.get?, if_pos (show k = p from ha.1)]
    · obtain ⟨y, hy, hg⟩ := ih hn.2 hp
      refine ⟨y, hy, ?_⟩
      rw [Kw.get?, if_neg]
      · exact hg
      · intro hk
        exact hn.1 (by rw [← ha.1, show (k, x).1 = k from rfl, hk]; exact List.mem_map.2 ⟨_, hp, rfl⟩)

/-- two combinations that agree on the parameters with several values are equal -/
theorem combination_ext {params : List (Text × Param)} (hn : (params.map Prod.fst).Nodup) {kw kw' : Kw} (h : IsCombination params kw)
    (h' : IsCombination params kw') (heq : ∀ p v, (p, v) ∈ params → 1 < v.values.length → kw.get? p = kw'.get? p) : kw = kw' := by
  induction h generalizing kw' with
  | nil => cases h'; rfl
  | @cons a e params kw ha hr ih =>
    cases h' with
    | @cons _ e' _ kw'' ha' hr' =>
      obtain ⟨k, x⟩ := e
      obtain ⟨k', x'⟩ := e'
      rw [List.map_cons, List.nodup_cons] at hn
      have hk : k = a.1 := ha.1
      have hk' : k' = a.1 := ha'.1
      subst hk hk'
      have hx : x = x' := by
        by_cases hlen : 1 < a.2.values.length
        · have := heq a.1 a.2 List.mem_cons_self hlen
          simp [Kw.get?] at this
          exact this
        · have h1 : x ∈ a.2.values := ha.2
          have h2 : x' ∈ a.2.values := ha'.2
          generalize a.2.values = vs at h1 h2 hlen
          match vs, h1, h2, hlen with
          | [], h1, _, _ => cases h1
          | [y], h1, h2, _ => rw [List.mem_singleton.1 h1, List.mem_singleton.1 h2]
          | _ :: _ :: _, _, _, hlen => simp at hlen
      subst hx
      rw [ih hn.2 hr' (fun p v hp hv => ?_)]
      have hne : a.1 ≠ p := by
        intro hc
        exact hn.1 (by rw [hc]; exact List.mem_map.2 ⟨_, hp, rfl⟩)
      have := heq p v (List.mem_cons_of_mem _ hp) hv
      rw [Kw.get?, if_neg hne, Kw.get?, if_neg hne] at this
      exact this

theorem varies_iff (v : Param) : v.varies = true ↔ 1 < v.values.length := by
  cases v with
  | str t => simp [Param.varies, Param.values]
  | scalar x => simp [Param.varies, Param.values]
  | many vs => simp [Param.varies, Param.values]

theorem mem_variableParams (params : List (Text × Param)) (p : Text) : p ∈ variableParams params ↔ ∃ v, (p, v) ∈ params ∧ 1 < v.values.length := by
  unfold variableParams
  simp only [List.mem_map, List.mem_filter, varies_iff]
  constructor
  · rintro ⟨⟨p', v⟩, ⟨h1, h2⟩, rfl⟩; exact ⟨v, h1, h2⟩
  · rintro ⟨v, h1, h2⟩; exact ⟨(p, v), ⟨h1, h2⟩, rfl⟩

theorem hasArg_batch {params : List (Text × Param)} (ho : Ordinary params) (seed : Int) {p : Text} {v : Param} (hp : (p, v) ∈ params) :
    HasArg (batchKwargs params 1 seed) p := by
  intro kw hkw
  have h1 := batch_args params seed [p] (fun q hq => by rw [List.mem_singleton.1 hq]; exact ho.2 _ hp)
  have h2 : [kw.get? p] ∈ (makeModelKwargs params).1.map (fun kw => [p].map (fun p => kw.get? p)) := by
    rw [← h1]; exact List.mem_map.2 ⟨kw, hkw, rfl⟩
  obtain ⟨kw', hkw', he⟩ := List.mem_map.1 h2
  obtain ⟨x, -, hx⟩ := combination_get? ho.1 (((kwargs_grid params ho.1).1 kw').1 hkw') hp
  simp only [List.map_cons, List.map_nil, List.cons.injEq, and_true] at he
  exact ⟨x, by rw [← he]; exact hx⟩

/-- C88, the heat map.  With exactly two variable parameters, none of whose values is listed twice, and no empty list of values, there is a heat map for
every metric; it has exactly one cell per pair of values, with the metric of the one run with these values. -/
theorem C88_heatmap {params : List (Text × Param)} (ho : Ordinary params) (seed : Int) {names : List Text} {val : Kw → Text → F} {rows : List (Result F)}
    (h : Finished (batchKwargs params 1 seed) names val rows) {p q m : Text} {v w : Param} (hvp : variableParams params = [p, q])
    (hp : (p, v) ∈ params) (hq : (q, w) ∈ params) (hv : v.values.Nodup) (hw : w.values.Nodup) (hne : ∀ e ∈ params, e.2.values ≠ []) (hm : m ∈ names) :
    ∃ cells, plotHeatmap rows p q m = .ok (.heat p q m cells) ∧ (cells.map Prod.fst).Nodup ∧
      (∀ a b, (a, b) ∈ cells.map Prod.fst ↔ a ∈ v.values ∧ b ∈ w.values) ∧
      ∀ a b y, ((a, b), y) ∈ cells ↔ ∃ kw ∈ batchKwargs params 1 seed, kw.get? p = some a ∧ kw.get? q = some b ∧ val kw m = y := by
  obtain ⟨cells, h1, h2⟩ := plotHeatmap_eq h (hasArg_batch ho seed hp) (hasArg_batch ho seed hq) hm
  have hmem : ∀ a b y, ((a, b), y) ∈ cells ↔ ∃ kw ∈ batchKwargs params 1 seed, kw.get? p = some a ∧ kw.get? q = some b ∧ val kw m = y := by
    intro a b y
    have := h2.mem_iff (a := (some a, some b, y))
    simp only [List.mem_map, Prod.mk.injEq, Option.some.injEq] at this
    rw [← this]
    constructor
    · intro hc; exact ⟨_, hc, rfl, rfl, rfl⟩
    · rintro ⟨⟨⟨a', b'⟩, y'⟩, hc, rfl, rfl, rfl⟩; exact hc
  -- the pairs of values, in terms of the combinations
  have hba := batch_args params seed [p, q] (fun r hr => by
    rcases List.mem_cons.1 hr with rfl | hr
    · exact ho.2 _ hp
    · rw [List.mem_singleton.1 hr]; exact ho.2 _ hq)
  have hpairs : (cells.map (fun e => [some e.1.1, some e.1.2])).Perm ((makeModelKwargs params).1.map (fun kw => [kw.get? p, kw.get? q])) := by
    have := h2.map (fun e : Option Val × Option Val × F => [e.1, e.2.1])
    rw [List.map_map, List.map_map] at this
    exact this.trans (List.Perm.of_eq hba)
  obtain ⟨g1, -, g3⟩ := kwargs_grid params ho.1
  have hnodup : ((makeModelKwargs params).1.map (fun kw => [kw.get? p, kw.get? q])).Nodup := by
    refine List.Nodup.map_on ?_ (g3 ?_)
    · intro kw hkw kw' hkw' he
      refine combination_ext ho.1 ((g1 kw).1 hkw) ((g1 kw').1 hkw') (fun r u hr hu => ?_)
      have : r ∈ variableParams params := (mem_variableParams params r).2 ⟨u, hr, hu⟩
      rw [hvp] at this
      simp only [List.cons.injEq, and_true] at he
      rcases List.mem_cons.1 this with rfl | this
      · exact he.1
      · rw [List.mem_singleton.1 this]; exact he.2
    · rintro ⟨r, u⟩ hr
      by_cases hu : 1 < u.values.length
      · have : r ∈ variableParams params := (mem_variableParams params r).2 ⟨u, hr, hu⟩
        rw [hvp] at this
        have huniq : ∀ {r : Text} {u u' : Param}, (r, u) ∈ params → (r, u') ∈ params → u = u' := by
          intro r u u' h1 h2
          have := List.inj_on_of_nodup_map ho.1 h1 h2 rfl
          simpa using this
        rcases List.mem_cons.1 this with rfl | this
        · rw [huniq hr hp]; exact hv
        · have := List.mem_singleton.1 this
          subst this
          rw [huniq hr hq]; exact hw
      · change u.values.Nodup
        generalize u.values = vs at hu
        match vs, hu with
        | [], _ => exact List.nodup_nil
        | [y], _ => exact List.nodup_singleton y
        | _ :: _ :: _, hu => simp at hu
  have hkeys : (cells.map Prod.fst).Nodup := by
    have h3 := hpairs.nodup_iff.2 hnodup
    have h4 : cells.map (fun e => [some e.1.1, some e.1.2]) = (cells.map Prod.fst).map (fun e => [some e.1, some e.2]) := by
      rw [List.map_map]; rfl
    rw [h4] at h3
    exact List.Nodup.of_map _ h3
  rw [if_pos hkeys] at h1
  refine ⟨cells, h1, hkeys, ?_, hmem⟩
  intro a b
  have hab : (a, b) ∈ cells.map Prod.fst ↔ ∃ kw ∈ (makeModelKwargs params).1, kw.get? p = some a ∧ kw.get? q = some b := by
    have := hpairs.mem_iff (a := [some a, some b])
    simp only [List.mem_map, List.cons.injEq, Option.some.injEq, and_true] at this
    rw [← this, List.mem_map]
    constructor
    · rintro ⟨e, he, hee⟩; exact ⟨e, he, by rw [hee], by rw [hee]⟩
    · rintro ⟨e, he, h1, h2⟩; exact ⟨e, he, by rw [← h1, ← h2]⟩
  rw [hab]
  constructor
  · rintro ⟨kw, hkw, h3, h4⟩
    obtain ⟨x, hx, h5⟩ := combination_get? ho.1 ((g1 kw).1 hkw) hp
    obtain ⟨y, hy, h6⟩ := combination_get? ho.1 ((g1 kw).1 hkw) hq
    rw [h3] at h5; rw [h4] at h6
    cases h5; cases h6
    exact ⟨hx, hy⟩
  · rintro ⟨ha, hb⟩
    have hpq : p ≠ q := by
      have hnd : (variableParams params).Nodup := by
        unfold variableParams
        exact ho.1.sublist (List.filter_sublist.map _)
      rw [hvp] at hnd
      simpa using hnd
    -- choose the values `a` and `b`, and the first value for every other parameter
    have hex : ∀ (ps : List (Text × Param)), (ps.map Prod.fst).Nodup → (∀ e ∈ ps, e ∈ params) → ∃ kw, IsCombination ps kw ∧
        ((∃ u, (p, u) ∈ ps) → kw.get? p = some a) ∧ ((∃ u, (q, u) ∈ ps) → kw.get? q = some b) := by
      intro ps
      induction ps with
      | nil => intro _ _; exact ⟨[], List.Forall₂.nil, (by rintro ⟨u, hu⟩; cases hu), (by rintro ⟨u, hu⟩; cases hu)⟩
      | cons e ps ih =>
        intro hnd hsub
        rw [List.map_cons, List.nodup_cons] at hnd
        obtain ⟨kw, k1, k2, k3⟩ := ih hnd.2 (fun e he => hsub e (List.mem_cons_of_mem _ he))
        obtain ⟨r, u⟩ := e
        have hmemr : (r, u) ∈ params := hsub _ List.mem_cons_self
        have huniq : ∀ {r : Text} {u u' : Param}, (r, u) ∈ params → (r, u') ∈ params → u = u' := by
          intro r u u' h1 h2
          have := List.inj_on_of_nodup_map ho.1 h1 h2 rfl
          simpa using this
        obtain ⟨y, hy, hyp, hyq⟩ : ∃ y ∈ u.values, (r = p → y = a) ∧ (r = q → y = b) := by
          by_cases hrp : r = p
          · subst hrp
            exact ⟨a, by rw [huniq hmemr hp]; exact ha, fun _ => rfl, fun h => absurd h hpq⟩
          · by_cases hrq : r = q
            · subst hrq
              exact ⟨b, by rw [huniq hmemr hq]; exact hb, fun h => absurd h hrp, fun _ => rfl⟩
            · obtain ⟨y, hy⟩ := List.exists_mem_of_ne_nil _ (hne _ hmemr)
              exact ⟨y, hy, fun h => absurd h hrp, fun h => absurd h hrq⟩
        refine ⟨(r, y) :: kw, List.Forall₂.cons ⟨rfl, hy⟩ k1, ?_, ?_⟩
        · rintro ⟨u', hu'⟩
          by_cases hrp : r = p
          · simp [Kw.get?, hrp, hyp hrp]
          · rw [Kw.get?, if_neg hrp]
            refine k2 ⟨u', ?_⟩
            rcases List.mem_cons.1 hu' with he | he
            · exact absurd (congrArg Prod.fst he).symm hrp
            · exact he
        · rintro ⟨u', hu'⟩
          by_cases hrq : r = q
          · simp [Kw.get?, hrq, hyq hrq]
          · rw [Kw.get?, if_neg hrq]
            refine k3 ⟨u', ?_⟩
            rcases List.mem_cons.1 hu' with he | he
            · exact absurd (congrArg Prod.fst he).symm hrq
            · exact he
    obtain ⟨kw, k1, k2, k3⟩ := hex params ho.1 (fun e he => he)
    exact ⟨kw, (g1 kw).2 k1, k2 ⟨v, hp⟩, k3 ⟨w, hq⟩⟩

/-- a product of factors that are positive, two of which (at different places) are known -/
theorem mul_le_prod : ∀ {l : List Nat} {a b : Nat}, (∀ x ∈ l, 1 ≤ x) → [a, b].Sublist l → a * b ≤ l.prod := by
  have h1 : ∀ {l : List Nat} {a : Nat}, (∀ x ∈ l, 1 ≤ x) → [a].Sublist l → a ≤ l.prod := by
    intro l
    induction l with
    | nil => intro a _ h; cases h
    | cons x l ih =>
      intro a hl h
      have hpos : 1 ≤ l.prod := Nat.one_le_iff_ne_zero.2 (fun h0 => by
        have := List.prod_eq_zero_iff.1 h0
        have := hl 0 (List.mem_cons_of_mem _ this)
        omega)
      rw [List.prod_cons]
      cases h with
      | cons _ h => exact (ih (fun y hy => hl y (List.mem_cons_of_mem _ hy)) h).trans (Nat.le_mul_of_pos_left _ (hl x List.mem_cons_self))
      | cons_cons _ h => exact Nat.le_mul_of_pos_right _ hpos
  intro l
  induction l with
  | nil => intro a b _ h; cases h
  | cons x l ih =>
    intro a b hl h
    rw [List.prod_cons]
    cases h with
    | cons _ h => exact (ih (fun y hy => hl y (List.mem_cons_of_mem _ hy)) h).trans (Nat.le_mul_of_pos_left _ (hl x List.mem_cons_self))
    | cons_cons _ h => exact Nat.mul_le_mul_left _ (h1 (fun y hy => hl y (List.mem_cons_of_mem _ hy)) h)

theorem dedup_lt {α : Type} [DecidableEq α] {l : List α} (h : ¬ l.Nodup) : l.dedup.length < l.length := by
  rcases Nat.lt_or_ge l.dedup.length l.length with hl | hl
  · exact hl
  · exact absurd (List.dedup_eq_self.1 ((List.dedup_sublist l).eq_of_length_le hl)) h

/-- C88, a value listed twice.  If one of exactly two variable parameters lists a value twice (and no parameter has an empty list of values), then every
heat map ends in an exception, after all the runs. -/
theorem C88_repeated_value {params : List (Text × Param)} (ho : Ordinary params) (seed : Int) {names : List Text} {val : Kw → Text → F}
    {rows : List (Result F)} (h : Finished (batchKwargs params 1 seed) names val rows) {p q m : Text} {v w : Param} (hvp : variableParams params = [p, q])
    (hp : (p, v) ∈ params) (hq : (q, w) ∈ params) (hdup : ¬ v.values.Nodup ∨ ¬ w.values.Nodup) (hne : ∀ e ∈ params, e.2.values ≠ [])
    (hm : m ∈ names) : plotHeatmap rows p q m = .error .value := by
  obtain ⟨cells, h1, h2⟩ := plotHeatmap_eq h (hasArg_batch ho seed hp) (hasArg_batch ho seed hq) hm
  rw [h1, if_neg]
  intro hnd
  obtain ⟨g1, g2, -⟩ := kwargs_grid params ho.1
  have hlen : cells.length = (params.map (fun p => p.2.values.length)).prod := by
    have := h2.length_eq
    rw [List.length_map, List.length_map, (batch_runs_named params 1 seed).1, Nat.mul_one, g2] at this
    exact this
  have hba := batch_args params seed [p, q] (fun r hr => by
    rcases List.mem_cons.1 hr with rfl | hr
    · exact ho.2 _ hp
    · rw [List.mem_singleton.1 hr]; exact ho.2 _ hq)
  have hpairs : (cells.map (fun e => [some e.1.1, some e.1.2])).Perm ((makeModelKwargs params).1.map (fun kw => [kw.get? p, kw.get? q])) := by
    have := h2.map (fun e : Option Val × Option Val × F => [e.1, e.2.1])
    rw [List.map_map, List.map_map] at this
    exact this.trans (List.Perm.of_eq hba)
  have hsub : cells.map Prod.fst ⊆ v.values.dedup ×ˢ w.values.dedup := by
    intro e he
    obtain ⟨c, hc, rfl⟩ := List.mem_map.1 he
    have hmem : [some c.1.1, some c.1.2] ∈ (makeModelKwargs params).1.map (fun kw => [kw.get? p, kw.get? q]) :=
      hpairs.mem_iff.1 (List.mem_map.2 ⟨c, hc, rfl⟩)
    obtain ⟨kw, hkw, he⟩ := List.mem_map.1 hmem
    simp only [List.cons.injEq, and_true] at he
    obtain ⟨x, hx, h5⟩ := combination_get? ho.1 ((g1 kw).1 hkw) hp
    obtain ⟨y, hy, h6⟩ := combination_get? ho.1 ((g1 kw).1 hkw) hq
    rw [he.1] at h5; rw [he.2] at h6
    injection h5 with h5; injection h6 with h6
    rw [show c.1 = (x, y) from Prod.ext h5 h6]
    exact List.mem_product.2 ⟨List.mem_dedup.2 hx, List.mem_dedup.2 hy⟩
  have hle := (List.Nodup.subperm hnd hsub).length_le
  rw [List.length_map, List.length_product, hlen] at hle
  have hsl : [v.values.length, w.values.length].Sublist (params.map (fun p => p.2.values.length)) := by
    have hs : (params.filter (fun e => e.2.varies)).Sublist params := List.filter_sublist
    have he : params.filter (fun e => e.2.varies) = [(p, v), (q, w)] := by
      have huniq : ∀ {r : Text} {u u' : Param}, (r, u) ∈ params → (r, u') ∈ params → u = u' := by
        intro r u u' h1 h2
        have := List.inj_on_of_nodup_map ho.1 h1 h2 rfl
        simpa using this
      have hvp' : (params.filter (fun e => e.2.varies)).map Prod.fst = [p, q] := hvp
      rcases hf : params.filter (fun e => e.2.varies) with _ | ⟨⟨r₁, u₁⟩, _ | ⟨⟨r₂, u₂⟩, _ | ⟨e₃, t⟩⟩⟩ <;> rw [hf] at hvp'
      · simp at hvp'
      · simp at hvp'
      · simp only [List.map_cons, List.map_nil, List.cons.injEq, and_true] at hvp'
        obtain ⟨rfl, rfl⟩ := hvp'
        have m1 : (r₁, u₁) ∈ params := hs.subset (by rw [hf]; simp)
        have m2 : (r₂, u₂) ∈ params := hs.subset (by rw [hf]; simp)
        rw [hf, huniq m1 hp, huniq m2 hq]
      · simp at hvp'
    rw [he] at hs
    exact hs.map (fun p => p.2.values.length)
  have hge := mul_le_prod (fun x hx => by
    obtain ⟨e, he, rfl⟩ := List.mem_map.1 hx
    exact List.length_pos_iff.2 (hne e he)) hsl
  have hv1 : 1 ≤ v.values.length := List.length_pos_iff.2 (hne _ hp)
  have hw1 : 1 ≤ w.values.length := List.length_pos_iff.2 (hne _ hq)
  have hlv := (List.dedup_sublist v.values).length_le
  have hlw := (List.dedup_sublist w.values).length_le
  have hlt : v.values.dedup.length * w.values.dedup.length < v.values.length * w.values.length := by
    rcases hdup with hd | hd
    · exact (Nat.mul_le_mul_left _ hlw).trans_lt (Nat.mul_lt_mul_of_pos_right (dedup_lt hd) hw1)
    · exact (Nat.mul_le_mul_right _ hlv).trans_lt (Nat.mul_lt_mul_of_pos_left (dedup_lt hd) hv1)
  omega

/-! ### All the plots -/

theorem mapM_ok_ex {α β : Type} {f : α → Py β} {R : α → β → Prop} (l : List α) (h : ∀ x ∈ l, ∃ y, f x = .ok y ∧ R x y) :
    ∃ ys, l.mapM f = .ok ys ∧ List.Forall₂ R l ys := by
  induction l with
  | nil => exact ⟨[], rfl, .nil⟩
  | cons a t ih =>
    obtain ⟨y, hy, hr⟩ := h a List.mem_cons_self
    obtain ⟨ys, hys, hrs⟩ := ih (fun x hx => h x (List.mem_cons_of_mem _ hx))
    refine ⟨y :: ys, ?_, .cons hr hrs⟩
    rw [List.mapM_cons, hy, hys]
    rfl

/-- the metrics that batch-run.py plots -/
def plotted (names : List Text) : List Text := names.filter (fun m => m ∈ colourNames.map String.toList)

theorem Finished.reporters {kws : List Kw} {names : List Text} {val : Kw → Text → F} {rows : List (Result F)} (h : Finished kws names val rows) :
    batchReporters rows = if kws = [] then [] else plotted names := by
  have hl := h.perm.length_eq
  rw [List.length_map] at hl
  match rows, hl with
  | [], hl =>
    have : kws = [] := List.length_eq_zero_iff.1 hl.symm
    rw [if_pos this]; rfl
  | r :: rs, hl =>
    have : kws ≠ [] := by intro hc; rw [hc] at hl; simp at hl
    rw [if_neg this]
    obtain ⟨kw, -, rfl⟩ := List.mem_map.1 (h.perm.mem_iff.1 (List.mem_cons_self (a := r) (l := rs)))
    unfold batchReporters plotted
    simp only [List.map_map]
    congr 1
    exact List.map_id' _

/-- a scatter plot of parameter `p` and metric `m`, as it should be -/
def ShowsScatter (kws : List Kw) (val : Kw → Text → F) (p m : Text) (f : BatchFigure F) : Prop :=
  ∃ pts, f = .scatter p m pts ∧ (pts.map (fun e => (some e.1, e.2))).Perm ((kws.filter (fun kw => 0 ≤ val kw m)).map (fun kw => (kw.get? p, val kw m)))

/-- a heat map of `p` and `q` and metric `m`, as it should be -/
def ShowsHeat (kws : List Kw) (val : Kw → Text → F) (p q m : Text) (f : BatchFigure F) : Prop :=
  ∃ cells, f = .heat p q m cells ∧ (cells.map Prod.fst).Nodup ∧
    ∀ a b y, ((a, b), y) ∈ cells ↔ ∃ kw ∈ kws, kw.get? p = some a ∧ kw.get? q = some b ∧ val kw m = y

theorem plotScatters {params : List (Text × Param)} (ho : Ordinary params) (seed : Int) {names : List Text} {val : Kw → Text → F} {rows : List (Result F)}
    (h : Finished (batchKwargs params 1 seed) names val rows) (hk : batchKwargs params 1 seed ≠ []) :
    ∃ fs, ((variableParams params).flatMap (fun p => (batchReporters rows).map (fun m => (p, m)))).mapM (fun e => plotAggregate rows e.1 e.2) = .ok fs ∧
      List.Forall₂ (fun e f => ShowsScatter (batchKwargs params 1 seed) val e.1 e.2 f)
        ((variableParams params).flatMap (fun p => (plotted names).map (fun m => (p, m)))) fs := by
  rw [h.reporters, if_neg hk]
  refine mapM_ok_ex _ (fun e he => ?_)
  simp only [List.mem_flatMap, List.mem_map] at he
  obtain ⟨p, hp, m, hm, rfl⟩ := he
  obtain ⟨v, hpv, -⟩ := (mem_variableParams params p).1 hp
  obtain ⟨pts, h1, h2⟩ := C88_scatter h (hasArg_batch ho seed hpv) (List.mem_filter.1 hm).1
  exact ⟨_, h1, pts, rfl, h2⟩

/-- C88, all the plots.  If no parameter lists a value twice, then the plots of a batch run are drawn without an exception: one scatter plot per variable
parameter and metric, and, exactly if there are two variable parameters, one heat map per metric. -/
theorem C88_plots {params : List (Text × Param)} (ho : Ordinary params) (seed : Int) {names : List Text} {val : Kw → Text → F} {rows : List (Result F)}
    (h : Finished (batchKwargs params 1 seed) names val rows) (hne : ∀ e ∈ params, e.2.values ≠ []) (hd : ∀ e ∈ params, e.2.values.Nodup) :
    ∃ scatters heats, batchPlots params rows = .ok (scatters ++ heats) ∧
      List.Forall₂ (fun e f => ShowsScatter (batchKwargs params 1 seed) val e.1 e.2 f)
        ((variableParams params).flatMap (fun p => (plotted names).map (fun m => (p, m)))) scatters ∧
      (∀ p q, variableParams params = [p, q] → List.Forall₂ (ShowsHeat (batchKwargs params 1 seed) val p q) (plotted names) heats) ∧
      ((variableParams params).length ≠ 2 → heats = []) := by
  have hk : batchKwargs params 1 seed ≠ [] := by
    rw [← List.length_pos_iff, (batch_runs_named params 1 seed).1, (kwargs_grid params ho.1).2.1, Nat.mul_one]
    refine Nat.pos_of_ne_zero (fun h0 => ?_)
    obtain ⟨e, he, h1⟩ := List.mem_map.1 (List.prod_eq_zero_iff.1 h0)
    exact hne e he (List.length_eq_zero_iff.1 h1)
  obtain ⟨fs, h1, h2⟩ := plotScatters ho seed h hk
  have hr : batchReporters rows = plotted names := by rw [h.reporters, if_neg hk]
  by_cases hvp : ∃ p q, variableParams params = [p, q]
  · obtain ⟨p, q, hvp⟩ := hvp
    obtain ⟨v, hp, -⟩ := (mem_variableParams params p).1 (by rw [hvp]; simp)
    obtain ⟨w, hq, -⟩ := (mem_variableParams params q).1 (by rw [hvp]; simp)
    obtain ⟨heats, h3, h4⟩ := mapM_ok_ex (f := plotHeatmap rows p q) (R := ShowsHeat (batchKwargs params 1 seed) val p q) (plotted names) (fun m hm => by
      obtain ⟨cells, c1, c2, -, c4⟩ := C88_heatmap ho seed h hvp hp hq (hd _ hp) (hd _ hq) hne (List.mem_filter.1 hm).1
      exact ⟨_, c1, cells, rfl, c2, c4⟩)
    refine ⟨fs, heats, ?_, h2, ?_, ?_⟩
    · unfold batchPlots
      simp only [bind, Except.bind, hvp, hr]
      rw [hvp, hr] at h1
      simp only [h1, h3]
      rfl
    · intro p' q' he
      rw [hvp] at he
      simp only [List.cons.injEq, and_true] at he
      obtain ⟨rfl, rfl⟩ := he
      exact h4
    · intro hc; rw [hvp] at hc; simp at hc
  · refine ⟨fs, [], ?_, h2, fun p q he => absurd ⟨p, q, he⟩ hvp, fun _ => rfl⟩
    unfold batchPlots
    simp only [h1, bind, Except.bind, List.append_nil]
    split
    · next p q he => exact absurd ⟨p, q, he⟩ hvp
    · rfl

/-- C88, no runs.  If a parameter has an empty list of values, then there is no run, no plot, and no exception. -/
theorem C88_no_runs {params : List (Text × Param)} (ho : Ordinary params) (seed : Int) {names : List Text} {val : Kw → Text → F} {rows : List (Result F)}
    (h : Finished (batchKwargs params 1 seed) names val rows) (he : ∃ e ∈ params, e.2.values = []) : rows = [] ∧ batchPlots params rows = .ok [] := by
  have hk : batchKwargs params 1 seed = [] := by
    rw [← List.length_eq_zero_iff, (batch_runs_named params 1 seed).1, (kwargs_grid params ho.1).2.1, Nat.mul_one, List.prod_eq_zero_iff]
    obtain ⟨e, he, h1⟩ := he
    exact List.mem_map.2 ⟨e, he, by rw [h1]; rfl⟩
  have hr : rows = [] := by
    have := h.perm
    rw [hk] at this
    exact List.perm_nil.1 this
  refine ⟨hr, ?_⟩
  subst hr
  have : (variableParams params).flatMap (fun p => (batchReporters ([] : List (Result F))).map (fun m => (p, m))) = [] := by
    simp [batchReporters]
  unfold batchPlots
  simp only [this]
  simp only [List.mapM_nil, pure, Except.pure, bind, Except.bind]
  split <;> rfl

/-- C88, a value listed twice, as a whole: the program has drawn the scatter plots and stops with an exception -/
theorem C88_crash {params : List (Text × Param)} (ho : Ordinary params) (seed : Int) {names : List Text} {val : Kw → Text → F} {rows : List (Result F)}
    (h : Finished (batchKwargs params 1 seed) names val rows) (hne : ∀ e ∈ params, e.2.values ≠ []) {p q : Text} (hvp : variableParams params = [p, q])
    {e : Text × Param} (hem : e ∈ params) (hdup : ¬ e.2.values.Nodup) (hm : plotted names ≠ []) : batchPlots params rows = .error .value := by
  have hk : batchKwargs params 1 seed ≠ [] := by
    rw [← List.length_pos_iff, (batch_runs_named params 1 seed).1, (kwargs_grid params ho.1).2.1, Nat.mul_one]
    refine Nat.pos_of_ne_zero (fun h0 => ?_)
    obtain ⟨e, he, h1⟩ := List.mem_map.1 (List.prod_eq_zero_iff.1 h0)
    exact hne e he (List.length_eq_zero_iff.1 h1)
  obtain ⟨fs, h1, -⟩ := plotScatters ho seed h hk
  have hr : batchReporters rows = plotted names := by rw [h.reporters, if_neg hk]
  obtain ⟨v, hp, -⟩ := (mem_variableParams params p).1 (by rw [hvp]; simp)
  obtain ⟨w, hq, -⟩ := (mem_variableParams params q).1 (by rw [hvp]; simp)
  have huniq : ∀ {r : Text} {u u' : Param}, (r, u) ∈ params → (r, u') ∈ params → u = u' := by
    intro r u u' h1 h2
    have := List.inj_on_of_nodup_map ho.1 h1 h2 rfl
    simpa using this
  have hvw : ¬ v.values.Nodup ∨ ¬ w.values.Nodup := by
    obtain ⟨r, u⟩ := e
    have hu : 1 < u.values.length := by
      change ¬ u.values.Nodup at hdup
      generalize u.values = vs at hdup
      match vs, hdup with
      | [], hd => exact absurd List.nodup_nil hd
      | [y], hd => exact absurd (List.nodup_singleton y) hd
      | _ :: _ :: _, _ => simp
    have := (mem_variableParams params r).2 ⟨u, hem, hu⟩
    rw [hvp] at this
    rcases List.mem_cons.1 this with rfl | this
    · left; rw [← huniq hem hp]; exact hdup
    · right
      have := List.mem_singleton.1 this
      subst this
      rw [← huniq hem hq]; exact hdup
  obtain ⟨m, ms, hms⟩ := List.exists_cons_of_ne_nil hm
  have hmn : m ∈ names := (List.mem_filter.1 (show m ∈ plotted names by rw [hms]; simp)).1
  have h3 := C88_repeated_value ho seed h hvp hp hq hvw hne hmn
  unfold batchPlots
  simp only [hvp, hr, hms]
  rw [hvp, hr, hms] at h1
  simp only [h1, bind, Except.bind, List.mapM_cons, h3]

/-! ### The files -/

/-- names without `-` -/
def NoDash (p : Text) : Prop := '-' ∉ p

theorem split_last {x y p q : Text} (hp : NoDash p) (hq : NoDash q) (h : x ++ '-' :: p = y ++ '-' :: q) : x = y ∧ p = q := by
  have aux : ∀ {x y p q : Text}, '-' ∉ p → '-' ∉ q → p ++ '-' :: x = q ++ '-' :: y → p = q ∧ x = y := by
    intro x y p
    induction p with
    | nil =>
      intro q _ hq h
      match q with
      | [] => simpa using h
      | c :: q => simp at h; simp [← h.1] at hq
    | cons a p ih =>
      intro q hp hq h
      match q with
      | [] => simp at h; simp [h.1] at hp
      | c :: q =>
        simp only [List.cons_append, List.cons.injEq] at h
        obtain ⟨h1, h2⟩ := ih (fun hc => hp (List.mem_cons_of_mem _ hc)) (fun hc => hq (List.mem_cons_of_mem _ hc)) h.2
        exact ⟨by rw [h.1, h1], h2⟩
  have hr := congrArg List.reverse h
  simp only [List.reverse_append, List.reverse_cons, List.append_assoc, List.singleton_append] at hr
  obtain ⟨h1, h2⟩ := aux (by rw [List.mem_reverse]; exact hp) (by rw [List.mem_reverse]; exact hq) hr
  exact ⟨List.reverse_injective h2, List.reverse_injective h1⟩

theorem forall₂_map_eq {α β γ : Type} {R : α → β → Prop} {f : α → γ} {g : β → γ} {l : List α} {l' : List β} (h : List.Forall₂ R l l')
    (hfg : ∀ a b, R a b → g b = f a) : l'.map g = l.map f := by
  induction h with
  | nil => rfl
  | cons hd _ ih => rw [List.map_cons, List.map_cons, hfg _ _ hd, ih]

theorem scatter_file (execId p m : Text) (pts : List (Val × F)) : (BatchFigure.scatter p m pts).file execId =
    (execId ++ "-".toList ++ m ++ "-per".toList) ++ '-' :: p ++ ".png".toList := by
  have h : "-per-".toList = "-per".toList ++ ['-'] := by decide
  unfold BatchFigure.file
  rw [h]
  generalize "-".toList = d, "-per".toList = e, ".png".toList = g
  simp only [List.append_assoc, List.cons_append, List.nil_append]

theorem heat_file (execId p q m : Text) (cells : List ((Val × Val) × F)) : (BatchFigure.heat p q m cells).file execId =
    ("heatmap-".toList ++ m ++ '-' :: p) ++ '-' :: q ++ ".png".toList := by
  have h : "-".toList = ['-'] := by decide
  unfold BatchFigure.file
  rw [h]
  generalize "heatmap-".toList = e, ".png".toList = g
  simp only [List.append_assoc, List.cons_append, List.nil_append]

/-- C88, the files.  The plots of a batch run are written to different files, whatever the id of the batch run is (names of parameters are identifiers of
Python, so they contain no `-`; none is called `per`). -/
theorem C88_files {params : List (Text × Param)} (ho : Ordinary params) (hpl : ∀ e ∈ params, NoDash e.1 ∧ e.1 ≠ "per".toList) (seed : Int)
    {names : List Text} (hn : names.Nodup) {val : Kw → Text → F} {rows : List (Result F)} (h : Finished (batchKwargs params 1 seed) names val rows)
    (hne : ∀ e ∈ params, e.2.values ≠ []) (hd : ∀ e ∈ params, e.2.values.Nodup) {figs : List (BatchFigure F)} (hf : batchPlots params rows = .ok figs)
    (execId : Text) : (figs.map (fun f => f.file execId)).Nodup := by
  obtain ⟨scatters, heats, h1, h2, h3, h4⟩ := C88_plots ho seed h hne hd
  rw [h1] at hf
  injection hf with hf
  subst hf
  have hvn : (variableParams params).Nodup := ho.1.sublist (List.filter_sublist.map _)
  have hmn : (plotted names).Nodup := hn.filter _
  have hpl' : ∀ p ∈ variableParams params, NoDash p ∧ p ≠ "per".toList := by
    intro p hp
    obtain ⟨v, hv, -⟩ := (mem_variableParams params p).1 hp
    exact hpl _ hv
  have e1 : scatters.map (fun f => f.file execId) =
      ((variableParams params).flatMap (fun p => (plotted names).map (fun m => (p, m)))).map
        (fun e => (execId ++ "-".toList ++ e.2 ++ "-per".toList) ++ '-' :: e.1 ++ ".png".toList) :=
    forall₂_map_eq h2 (fun e f hef => by
      obtain ⟨pts, rfl, -⟩ := hef
      exact scatter_file execId e.1 e.2 pts)
  have hsn : (scatters.map (fun f => f.file execId)).Nodup := by
    rw [e1]
    refine List.Nodup.map_on ?_ ?_
    · rintro ⟨p, m⟩ hx ⟨p', m'⟩ hy he
      simp only [List.mem_flatMap, List.mem_map, Prod.mk.injEq] at hx hy
      obtain ⟨p, hp, m, -, rfl, rfl⟩ := hx
      obtain ⟨p', hp', m', -, rfl, rfl⟩ := hy
      have he := List.append_cancel_right he
      obtain ⟨h5, h6⟩ := split_last (hpl' p hp).1 (hpl' p' hp').1 he
      have h5 := List.append_cancel_right h5
      exact Prod.ext h6 (List.append_cancel_left h5)
    · rw [List.nodup_flatMap]
      refine ⟨fun p _ => hmn.map (fun a b e => by simpa using e), ?_⟩
      refine hvn.imp (fun {p q} hpq x hx hy => ?_)
      obtain ⟨m, -, rfl⟩ := List.mem_map.1 hx
      obtain ⟨m', -, he⟩ := List.mem_map.1 hy
      exact hpq (congrArg Prod.fst he).symm
  by_cases hvp : ∃ p q, variableParams params = [p, q]
  · obtain ⟨p, q, hvp⟩ := hvp
    have hq := hpl' q (by rw [hvp]; simp)
    have hp := hpl' p (by rw [hvp]; simp)
    have e2 : heats.map (fun f => f.file execId) =
        (plotted names).map (fun m => ("heatmap-".toList ++ m ++ '-' :: p) ++ '-' :: q ++ ".png".toList) :=
      forall₂_map_eq (h3 p q hvp) (fun m f hmf => by
        obtain ⟨cells, rfl, -⟩ := hmf
        exact heat_file execId p q m cells)
    rw [List.map_append, List.nodup_append]
    refine ⟨hsn, ?_, ?_⟩
    · rw [e2]
      refine hmn.map (fun m m' he => ?_)
      have he := (split_last hq.1 hq.1 (List.append_cancel_right he)).1
      exact List.append_cancel_left (List.append_cancel_right he)
    · intro x hx y hy he
      subst he
      rw [e1] at hx
      rw [e2] at hy
      obtain ⟨⟨p', m⟩, hm, rfl⟩ := List.mem_map.1 hx
      obtain ⟨m', -, he⟩ := List.mem_map.1 hy
      simp only [List.mem_flatMap, List.mem_map, Prod.mk.injEq] at hm
      obtain ⟨p', hp', m, -, rfl, rfl⟩ := hm
      have h5 := (split_last hq.1 (hpl' p' hp').1 (List.append_cancel_right he)).1
      have h6 : "heatmap-".toList ++ m' ++ '-' :: p = (execId ++ "-".toList ++ m) ++ '-' :: "per".toList := by
        rw [h5]
        simp [List.append_assoc]
      exact hp.2 (split_last hp.1 (by unfold NoDash; decide) h6).2
  · have : heats = [] := h4 (fun hc => hvp (by
      match hv : variableParams params, hc with
      | [p, q], _ => exact ⟨p, q, rfl⟩))
    rw [this, List.append_nil]
    exact hsn

/-! ### The command line -/

/-- C88: `--agent_profile_distr` has no effect on a batch run -/
theorem C88_profiles_ignored (args args' : List (Text × Param))
    (h : args.filter (fun e => e.1 ≠ "agent_profile_distr".toList) = args'.filter (fun e => e.1 ≠ "agent_profile_distr".toList)) : batchParams args = batchParams args' := by
  change args.filter (fun e => e.1 ≠ profileDistrName) = args'.filter (fun e => e.1 ≠ profileDistrName) at h
  have e : ∀ l : List (Text × Param), batchParams l =
      (l.filter (fun e => e.1 ≠ profileDistrName)).filter (fun e => e.1 ≠ executionIdName ∧ e.1 ≠ seedName) := by
    intro l
    unfold batchParams
    rw [List.filter_filter]
    refine List.filter_congr (fun x _ => ?_)
    by_cases h1 : x.1 = executionIdName <;> by_cases h2 : x.1 = seedName <;> by_cases h3 : x.1 = profileDistrName <;> simp [h1, h2, h3]
  rw [e, e, h]

/-- C88: the options of a batch run, as parameters, are as the theorems above assume -/
theorem C88_ordinary (args : List (Text × Param)) (hn : (args.map Prod.fst).Nodup) (hs : ∀ e ∈ args, e.1 ≠ "seq_id".toList) : Ordinary (batchParams args) := by
  refine ⟨hn.sublist (List.filter_sublist.map _), fun e he => ?_⟩
  obtain ⟨h1, h2⟩ := List.mem_filter.1 he
  simp only [decide_eq_true_eq] at h2
  exact ⟨hs e h1, h2.2.1, h2.1⟩

/-- C88: the reward scheme of CIP-50 cannot be chosen in a batch run, though it is described there; the others can, except that of CIP-7, which ends in
an exception -/
theorem C88_schemes : (∀ n i : Nat, batchSchemeChoice n = true → makeScheme n = .ok i → schemeOf i ≠ .cip50) ∧
    (∀ sch : Scheme, sch ≠ .cip50 → ∃ n : Nat, batchSchemeChoice n = true ∧ ∃ i, makeScheme n = .ok i ∧ schemeOf i = sch) ∧
    ∃ i, makeScheme 4 = .ok i ∧ schemeOf i = .cip50 := by
  refine ⟨?_, ?_, 4, rfl, rfl⟩
  · intro n i hn hi
    unfold batchSchemeChoice at hn
    have : n < 4 := by simpa using hn
    match n, this with
    | 0, _ => cases hi; decide
    | 1, _ => cases hi; decide
    | 2, _ => cases hi; decide
    | 3, _ => cases hi
  · intro sch h
    cases sch
    · exact ⟨0, by decide, 0, rfl, rfl⟩
    · exact ⟨1, by decide, 1, rfl, rfl⟩
    · exact ⟨2, by decide, 2, rfl, rfl⟩
    · exact absurd rfl h

/-! ### A case

Two values of `k` and three of `a0`, six runs that finish in another order, a metric that is negative for one of them. -/

def plotParams : List (Text × Param) :=
  batchParams [("execution_id".toList, .str "batch".toList), ("seed".toList, .scalar (.int 7)), ("k".toList, .many [.int 10, .int 20]),
    ("n".toList, .scalar (.int 100)), ("a0".toList, .many [.int 0, .int 1, .int 2]), ("agent_profile_distr".toList, .many [.int 1, .int 0, .int 0])]

def plotNames : List Text := ["Pool count".toList, "Mean margin".toList]

/-- the number of the run, less 3 for the second metric -/
def plotVal (kw : Kw) (m : Text) : Int :=
  match kw.get? "seq_id".toList with
  | some (.int i) => if m = "Pool count".toList then i else i - 3
  | _ => 0

def plotRows : List (Result Int) := ((batchKwargs plotParams 1 7).map (fun kw => ⟨kw, plotNames.map (fun m => (m, plotVal kw m))⟩)).reverse

theorem plotRows_finished : Finished (batchKwargs plotParams 1 7) plotNames plotVal plotRows := ⟨List.reverse_perm _⟩

theorem plotParams_ordinary : Ordinary plotParams := ⟨by decide +kernel, by decide +kernel⟩

example : variableParams plotParams = ["k".toList, "a0".toList] := by decide +kernel

/-- four scatter plots and two heat maps -/
example : ∃ figs, batchPlots plotParams plotRows = .ok figs ∧ (figs.map (fun f => f.file "batch".toList)).Nodup ∧ figs.length = 6 := by
  have hne : ∀ e ∈ plotParams, e.2.values ≠ [] := by decide +kernel
  have hd : ∀ e ∈ plotParams, e.2.values.Nodup := by decide +kernel
  obtain ⟨sc, he, h1, h2, h3, -⟩ := C88_plots plotParams_ordinary 7 plotRows_finished hne hd
  refine ⟨sc ++ he, h1, C88_files plotParams_ordinary ?_ 7 (by decide +kernel) plotRows_finished hne hd h1 _, ?_⟩
  · simp only [NoDash]; decide +kernel
  · have e1 := h2.length_eq
    have e2 := (h3 "k".toList "a0".toList (by decide +kernel)).length_eq
    rw [List.length_append, ← e1, ← e2]
    decide +kernel

/-- the same with a value of `a0` listed twice -/
def doubledParams : List (Text × Param) :=
  [("k".toList, .many [.int 10, .int 20]), ("n".toList, .scalar (.int 100)), ("a0".toList, .many [.int 1, .int 1])]

example : batchPlots doubledParams ((batchKwargs doubledParams 1 7).map (fun kw => ⟨kw, plotNames.map (fun m => (m, plotVal kw m))⟩)) = .error .value :=
  C88_crash ⟨by decide +kernel, by decide +kernel⟩ 7 (val := plotVal) (names := plotNames) ⟨List.Perm.refl _⟩ (by decide +kernel)
    (p := "k".toList) (q := "a0".toList) (by decide +kernel) (e := ("a0".toList, .many [.int 1, .int 1])) (by simp [doubledParams])
    (by decide +kernel) (by decide +kernel)

end RSE.Props
