import Verif.Model.Graphs
import Verif.Props.Rejects

/-!
# C82: the graphs of a run
-/

set_option linter.unusedSectionVars false

namespace RSE.Props

variable {K : Type} [Field K] [LinearOrder K] [IsStrictOrderedRing K]

/-- a number, not a list or a dict -/
def IsNumber {F : Type} (v : MetricValue F) : Prop :=
  match v with
  | .nat _ => True
  | .int _ => True
  | .num _ => True
  | _ => False

theorem lookup_mem {β : Type} {name : String} {v : β} : ∀ {l : List (String × β)}, l.lookup name = some v → (name, v) ∈ l
  | [], h => by cases h
  | (x, y) :: t, h => by
    rw [List.lookup_cons] at h
    split at h
    · rename_i hx
      cases h
      rw [beq_iff_eq] at hx
      rw [hx]
      exact List.mem_cons_self
    · exact List.mem_cons_of_mem _ (lookup_mem h)

/-- the type of a value of a metric depends on the metric only -/
theorem column_kind {env : MetricEnv K} {s : State K} {name : String} {v : MetricValue K} (h : reportColumn env s name = .ok v) :
    name ∈ colourNames ∧ ((name = "Stake per agent" ∧ ∃ l, v = .nums l ∧ stakesByAgent env.n s = .ok l) ∨
      (name = "Stake per agent id" ∧ ∃ d, v = .dict d) ∨ (name = "StakePairs" ∧ ∃ p, v = .pairs p) ∨
      (name ∉ ["Stake per agent", "Stake per agent id", "StakePairs"] ∧ IsNumber v)) := by
  have hmem : (name, (.ok v : Py (MetricValue K))) ∈ allReporters env s := by
    unfold reportColumn at h
    cases hl : (allReporters env s).lookup name with
    | none => rw [hl] at h; cases h
    | some x =>
      rw [hl] at h
      have h : x = .ok v := h
      subst h
      exact lookup_mem hl
  have num : ∀ {x : Py K}, (.ok v : Py (MetricValue K)) = x.map .num → IsNumber v := by
    rintro (e | x) hx
    · cases hx
    · cases hx; trivial
  have nat : ∀ {x : Py Nat}, (.ok v : Py (MetricValue K)) = x.map .nat → IsNumber v := by
    rintro (e | x) hx
    · cases hx
    · cases hx; trivial
  have int : ∀ {x : Py Int}, (.ok v : Py (MetricValue K)) = x.map .int → IsNumber v := by
    rintro (e | x) hx
    · cases hx
    · cases hx; trivial
  clear h
  simp only [allReporters, List.mem_cons, Prod.mk.injEq, List.not_mem_nil, or_false] at hmem
  rcases hmem with h | h | h | h | h | h | h | h | h | h | h | h | h | h | h | h | h | h | h | h | h | h | h | h | h | h | h | h | h | h | h | h
  all_goals obtain ⟨rfl, h⟩ := h
  all_goals refine ⟨by decide, ?_⟩
  case inr.inr.inr.inr.inr.inr.inr.inr.inr.inr.inr.inr.inr.inr.inr.inr.inr.inr.inr.inr.inr.inr.inr.inr.inr.inr.inl =>
    refine .inl ⟨rfl, ?_⟩
    revert h
    cases stakesByAgent env.n s with
    | error e => intro h; cases h
    | ok l => intro h; cases h; exact ⟨l, rfl, rfl⟩
  case inr.inr.inr.inr.inr.inr.inr.inr.inr.inr.inr.inr.inr.inr.inr.inr.inr.inr.inr.inr.inr.inr.inr.inr.inr.inr.inr.inl =>
    refine .inr (.inl ⟨rfl, ?_⟩)
    revert h
    cases stakesByAgentId env.n s with
    | error e => intro h; cases h
    | ok l => intro h; cases h; exact ⟨l, rfl⟩
  case inr.inr.inr.inr.inr.inr.inr.inr.inr.inr.inr.inr.inr.inr.inr.inr.inr.inr.inr.inr.inr.inr.inr.inr.inr.inr.inr.inr.inl =>
    refine .inr (.inr (.inl ⟨rfl, ?_⟩))
    revert h
    cases stakePairs s with
    | error e => intro h; cases h
    | ok l => intro h; cases h; exact ⟨l, rfl⟩
  all_goals refine .inr (.inr (.inr ⟨by decide, ?_⟩))
  all_goals first
    | exact num h
    | exact nat h
    | exact int h
    | (cases h; trivial)

/-- a state in which metrics were collected, with what they read besides -/
abbrev Seen (K : Type) := MetricEnv K × State K

/-- What must be drawn for the metric `name` if `ws` are the states of which metrics were collected, in this order (the first was collected before the first
round). -/
def Drawn (n : Nat) (ws : List (Seen K)) (eqSteps : List Int) (pivots : List Nat) (name : String) (figs : List (Figure K)) : Prop :=
  if name = "Stake per agent" then
    -- one series per agent, from the second state on: the stake in the pools of the agent; the heights add up to the stake in all pools
    ∃ series, figs = [.area (List.range' 1 (ws.length - 1)) series] ∧ series.length = n ∧ ∀ i ys, series[i]? = some ys → ys.length = ws.length - 1 ∧
      ∀ r w, ws[r + 1]? = some w → ys[r]? = some (controls w.2 i) ∧ (series.map (fun ys => ys.getD r 0)).sum = totalDelegatedStake w.2
  else if name = "Stake per agent id" ∨ name = "StakePairs" then figs = []
  else
    -- a curve through all values; a cross for each parameter change, at the value in the state in which the new parameters came into force
    ∃ data crosses, figs = [.line name data eqSteps crosses] ∧ List.Forall₂ (fun w v => reportColumn w.1 w.2 name = .ok v) ws data ∧
      List.Forall₂ (fun p c => c.1 = p ∧ ∃ w, ws[p]? = some w ∧ reportColumn w.1 w.2 name = .ok c.2) pivots crosses

theorem mapM_forall₂ {α β : Type} {f : α → Py β} {Q : α → β → Prop} : ∀ {l : List α}, (∀ a ∈ l, ∃ b, f a = .ok b ∧ Q a b) →
    ∃ bs, l.mapM f = .ok bs ∧ List.Forall₂ Q l bs
  | [], _ => ⟨[], rfl, .nil⟩
  | a :: t, h => by
    obtain ⟨b, h1, h2⟩ := h a List.mem_cons_self
    obtain ⟨bs, h3, h4⟩ := mapM_forall₂ (l := t) (fun x hx => h x (List.mem_cons_of_mem _ hx))
    exact ⟨b :: bs, by rw [List.mapM_cons, h1, h3]; rfl, .cons h2 h4⟩

theorem forall₂_of_mapM {α β : Type} {f : α → Py β} : ∀ {l : List α} {bs : List β}, l.mapM f = .ok bs → List.Forall₂ (fun a b => f a = .ok b) l bs
  | [], bs, h => by cases h; exact .nil
  | a :: t, bs, h => by
    rw [List.mapM_cons] at h
    obtain ⟨b, h1, h⟩ := bind_ok h
    obtain ⟨bs', h2, h⟩ := bind_ok h
    cases h
    exact .cons h1 (forall₂_of_mapM h2)

theorem forall₂_at {α β : Type} {R : α → β → Prop} : ∀ {l : List α} {m : List β}, List.Forall₂ R l m → ∀ {i : Nat} {a : α}, l[i]? = some a →
    ∃ b, m[i]? = some b ∧ R a b
  | _, _, .cons h t, 0, a, hi => by cases hi; exact ⟨_, rfl, h⟩
  | _, _, .cons h t, i + 1, a, hi => forall₂_at t (i := i) hi

theorem forall₂_at' {α β : Type} {R : α → β → Prop} : ∀ {l : List α} {m : List β}, List.Forall₂ R l m → ∀ {i : Nat} {b : β}, m[i]? = some b →
    ∃ a, l[i]? = some a ∧ R a b
  | _, _, .cons h t, 0, b, hi => by cases hi; exact ⟨_, rfl, h⟩
  | _, _, .cons h t, i + 1, b, hi => forall₂_at' t (i := i) hi

/-- what `get_pool_stakes_by_agent` returns if it does not raise -/
theorem owners_of_ok {n : Nat} {s : State K} {l : List K} (h : stakesByAgent n s = .ok l) :
    l.length = n ∧ (∀ i, i < n → l[i]? = some (controls s i)) ∧ l.sum = totalDelegatedStake s := by
  have key : ∀ (ps : List (Pool K)) (acc l : List K), iterM addStakeAt acc ps = .ok l → ∀ p ∈ ps, p.owner < acc.length := by
    intro ps
    induction ps with
    | nil => intro acc l _ p hp; cases hp
    | cons q t ih =>
      intro acc l hl p hp
      obtain ⟨acc', h1, h2⟩ := bind_ok hl
      unfold addStakeAt at h1
      cases hq : acc[q.owner]? with
      | none => rw [hq] at h1; cases h1
      | some x =>
        rw [hq] at h1
        cases h1
        rcases List.mem_cons.1 hp with rfl | hp
        · exact (List.getElem?_eq_some_iff.1 hq).1
        · have := ih _ _ h2 p hp
          rwa [List.length_set] at this
  obtain ⟨l', h1, h2, h3, h4⟩ := C49_stake_per_agent (n := n) (s := s) (by
    intro e he
    have := key _ _ _ h (s.heap e.2) (List.mem_map_of_mem (f := fun e => s.heap e.2) he)
    rwa [List.length_replicate] at this)
  rw [h] at h1
  cases h1
  exact ⟨h2, h3, h4⟩


theorem plotArea_ok {n : Nat} {ws : List (Seen K)} (hw : ∀ w ∈ ws, w.1.n = n) {data : List (MetricValue K)} (hne : ws ≠ [])
    (h : List.Forall₂ (fun (w : Seen K) v => reportColumn w.1 w.2 "Stake per agent" = .ok v) ws data) (eqSteps : List Int) (pivots : List Nat) :
    ∃ f, plotArea data = .ok f ∧ Drawn n ws eqSteps pivots "Stake per agent" [f] := by
  obtain ⟨ls, l1, l2⟩ : ∃ ls, data.mapM MetricValue.asRow = .ok ls ∧ List.Forall₂ (fun (w : Seen K) l => stakesByAgent n w.2 = .ok l) ws ls := by
    clear hne
    induction h with
    | nil => exact ⟨[], rfl, .nil⟩
    | @cons w v ws' data' h0 ht ih =>
      obtain ⟨ls, l1, l2⟩ := ih (fun x hx => hw x (List.mem_cons_of_mem _ hx))
      obtain ⟨-, ⟨-, l, rfl, hl⟩ | ⟨h1, -⟩ | ⟨h1, -⟩ | ⟨h1, -⟩⟩ := column_kind h0
      · refine ⟨l :: ls, ?_, .cons (by rw [← hw w List.mem_cons_self]; exact hl) l2⟩
        rw [List.mapM_cons, l1]; rfl
      · exact absurd h1 (by decide)
      · exact absurd h1 (by decide)
      · exact absurd List.mem_cons_self h1
  have hlen : ∀ l ∈ ls, l.length = n := by
    intro l hl
    obtain ⟨i, hi⟩ := List.mem_iff_getElem?.1 hl
    obtain ⟨w, -, h2⟩ := forall₂_at' l2 hi
    exact (owners_of_ok h2).1
  have hwl := l2.length_eq
  have hhead : (ls.headD []).length = n := by
    cases ls with
    | nil => exact absurd (List.length_eq_zero_iff.1 hwl) hne
    | cons l t => exact hlen l List.mem_cons_self
  let series := (List.range n).map (fun i => ls.tail.map (fun r => r.getD i 0))
  have hser : ∀ i ys, series[i]? = some ys → i < n ∧ ys = ls.tail.map (fun r => r.getD i 0) := by
    intro i ys hi
    rw [List.getElem?_map] at hi
    rcases Nat.lt_or_ge i n with hn | hn
    · rw [List.getElem?_range hn] at hi
      exact ⟨hn, (Option.some.inj hi).symm⟩
    · rw [List.getElem?_eq_none (by simpa using hn)] at hi; cases hi
  refine ⟨.area (List.range' 1 (ws.length - 1)) series, ?_, ?_⟩
  · unfold plotArea
    rw [l1]
    change (if _ then _ else _) = _
    rw [if_pos, hhead, ← hwl]
    · rfl
    · rw [List.all_eq_true]
      intro l hl
      rw [hhead, hlen l hl]
      exact beq_self_eq_true n
  · unfold Drawn
    rw [if_pos rfl]
    refine ⟨series, rfl, by simp [series], fun i ys hi => ?_⟩
    obtain ⟨hin, rfl⟩ := hser i ys hi
    refine ⟨by rw [List.length_map, List.length_tail, hwl], fun r w hr => ?_⟩
    obtain ⟨l, a1, a2⟩ := forall₂_at l2 hr
    obtain ⟨b1, b2, b3⟩ := owners_of_ok a2
    have ht : ls.tail[r]? = some l := by rw [List.getElem?_tail]; exact a1
    constructor
    · rw [List.getElem?_map, ht, Option.map_some, List.getD_eq_getElem?_getD, b2 i hin]
      rfl
    · rw [← b3]
      congr 1
      refine List.ext_getElem? (fun j => ?_)
      rw [List.map_map, List.getElem?_map]
      rcases Nat.lt_or_ge j n with hj | hj
      · rw [List.getElem?_range hj, Option.map_some, Function.comp, List.getD_eq_getElem?_getD, List.getElem?_map, ht, Option.map_some,
          Option.getD_some, List.getD_eq_getElem?_getD, b2 j hj, Option.getD_some]
      · rw [List.getElem?_eq_none (by simpa using hj), List.getElem?_eq_none (by omega)]
        rfl

theorem drawColumn_ok {n : Nat} {ws : List (Seen K)} (hw : ∀ w ∈ ws, w.1.n = n) {data : List (MetricValue K)} {name : String} (hne : ws ≠ [])
    (h : List.Forall₂ (fun (w : Seen K) v => reportColumn w.1 w.2 name = .ok v) ws data) (eqSteps : List Int) {pivots : List Nat}
    (hp : ∀ p ∈ pivots, p < ws.length) : ∃ figs, drawColumn eqSteps pivots name data = .ok figs ∧ Drawn n ws eqSteps pivots name figs := by
  cases h with
  | nil => exact absurd rfl hne
  | @cons w v ws' data' h0 ht =>
    have hall : List.Forall₂ (fun (w : Seen K) v => reportColumn w.1 w.2 name = .ok v) (w :: ws') (v :: data') := .cons h0 ht
    obtain ⟨hc, ⟨rfl, l, rfl, -⟩ | ⟨rfl, d, rfl⟩ | ⟨rfl, p, rfl⟩ | ⟨h1, h2⟩⟩ := column_kind h0
    · obtain ⟨f, f1, f2⟩ := plotArea_ok hw hne hall eqSteps pivots
      refine ⟨[f], ?_, f2⟩
      unfold drawColumn
      simp only [List.head?_cons, f1]
      rfl
    · exact ⟨[], rfl, by unfold Drawn; rw [if_neg (by decide), if_pos (by decide)]⟩
    · exact ⟨[], rfl, by unfold Drawn; rw [if_neg (by decide), if_pos (by decide)]⟩
    · obtain ⟨crosses, c1, c2⟩ := mapM_forall₂ (f := cross (v :: data')) (l := pivots)
        (Q := fun p c => c.1 = p ∧ ∃ x, (w :: ws')[p]? = some x ∧ reportColumn x.1 x.2 name = .ok c.2) (by
          intro p hpp
          obtain ⟨y, y1, y2⟩ := forall₂_at hall (List.getElem?_eq_getElem (hp p hpp))
          exact ⟨(p, y), by unfold cross; rw [y1], rfl, _, List.getElem?_eq_getElem (hp p hpp), y2⟩)
      refine ⟨[.line name (v :: data') eqSteps crosses], ?_, ?_⟩
      · have hl : plotLine name (v :: data') eqSteps pivots = .ok (.line name (v :: data') eqSteps crosses) := by
          unfold plotLine; rw [c1]; rfl
        unfold drawColumn
        cases v with
        | nums l => exact absurd h2 id
        | dict d => exact absurd h2 id
        | pairs d => exact absurd h2 id
        | nat x => simp only [List.head?_cons, if_pos hc, hl]; rfl
        | int x => simp only [List.head?_cons, if_pos hc, hl]; rfl
        | num x => simp only [List.head?_cons, if_pos hc, hl]; rfl
      · simp only [List.mem_cons, List.not_mem_nil, or_false, not_or] at h1
        unfold Drawn
        rw [if_neg h1.1, if_neg (by rintro (h | h); exacts [h1.2.1 h, h1.2.2 h])]
        exact ⟨_, _, rfl, hall, c2⟩

/-- the graphs depend on the states of which metrics were collected in the way they should -/
theorem graphs_of_rows {n : Nat} {ws : List (Seen K)} (hw : ∀ w ∈ ws, w.1.n = n) {cols : List String} {rows : List (List (MetricValue K))} (hne : ws ≠ [])
    (h : List.Forall₂ (fun (w : Seen K) row => collectRow w.1 cols w.2 = .ok row) ws rows) (eqSteps : List Int) {pivots : List Nat}
    (hp : ∀ p ∈ pivots, p < ws.length) :
    ∃ parts, exportGraphs cols rows eqSteps pivots = .ok parts.flatten ∧ List.Forall₂ (Drawn n ws eqSteps pivots) cols parts := by
  have hlen : rows.length ≠ 0 := by
    rw [← h.length_eq]
    exact fun h0 => hne (List.length_eq_zero_iff.1 h0)
  obtain ⟨parts, p1, p2⟩ := mapM_forall₂ (l := cols.zipIdx) (Q := fun e figs => Drawn n ws eqSteps pivots e.1 figs)
    (f := fun e => (do
      let data ← columnOf rows e.2
      drawColumn eqSteps pivots e.1 data : Py (List (Figure K)))) (by
    rintro ⟨name, j⟩ he
    have hj : cols[j]? = some name := List.mem_zipIdx_iff_getElem?.1 he
    obtain ⟨data, d1, d2⟩ : ∃ data, columnOf rows j = .ok data ∧
        List.Forall₂ (fun (w : Seen K) v => reportColumn w.1 w.2 name = .ok v) ws data := by
      clear hne hw hp hlen
      induction h with
      | nil => exact ⟨[], rfl, .nil⟩
      | @cons w row ws' rows' h0 ht ih =>
        obtain ⟨data, d1, d2⟩ := ih
        obtain ⟨v, v1, v2⟩ := forall₂_at (forall₂_of_mapM h0) hj
        refine ⟨v :: data, ?_, .cons v2 d2⟩
        unfold columnOf at d1 ⊢
        rw [List.mapM_cons, d1, v1]
        rfl
    obtain ⟨figs, f1, f2⟩ := drawColumn_ok hw hne d2 eqSteps hp
    exact ⟨figs, by simp only [d1]; exact f1, f2⟩)
  refine ⟨parts, ?_, ?_⟩
  · unfold exportGraphs
    rw [if_neg hlen, p1]
    rfl
  · have := List.forall₂_map_left_iff (f := Prod.fst) (R := Drawn n ws eqSteps pivots) (l := cols.zipIdx) (u := parts)
    rw [List.zipIdx_map_fst] at this
    exact this.2 p2

/-- the name of the file with the graph of a metric -/
def graphFile (executionId name : String) : String :=
  if name = "Stake per agent" then "poolDynamics-" ++ executionId ++ ".png" else executionId ++ "-" ++ name ++ ".png"

theorem graphFile_injective (executionId : String) {x y : String} (hx : x ∈ colourNames) (hy : y ∈ colourNames)
    (h : graphFile executionId x = graphFile executionId y) : x = y := by
  have cancel : ∀ {u v : String}, executionId ++ "-" ++ u ++ ".png" = executionId ++ "-" ++ v ++ ".png" → u = v := by
    intro u v he
    have he := congrArg String.toList he
    simp only [String.toList_append] at he
    exact String.toList_inj.1 (List.append_cancel_left (List.append_cancel_right he))
  have noD : ∀ z ∈ colourNames, z.toList.count 'D' = 0 := by decide
  have differ : ∀ {z : String}, z ∈ colourNames → "poolDynamics-" ++ executionId ++ ".png" ≠ executionId ++ "-" ++ z ++ ".png" := by
    intro z hz he
    have he := congrArg (fun u => List.count 'D' (String.toList u)) he
    simp only [String.toList_append, List.count_append, noD z hz] at he
    have h1 : List.count 'D' "poolDynamics-".toList = 1 := by decide
    have h2 : List.count 'D' "-".toList = 0 := by decide
    omega
  unfold graphFile at h
  split at h <;> split at h
  · rename_i h1 h2; rw [h1, h2]
  · exact absurd h (differ hy)
  · exact absurd h.symm (differ hx)
  · exact cancel h

theorem Drawn.files {n : Nat} {ws : List (Seen K)} {eqSteps : List Int} {pivots : List Nat} (executionId : String) {name : String} {figs : List (Figure K)}
    (h : Drawn n ws eqSteps pivots name figs) : (figs.map (·.file executionId)).Sublist [graphFile executionId name] := by
  unfold Drawn at h
  unfold graphFile
  split at h
  · obtain ⟨series, rfl, -⟩ := h
    rw [if_pos (by assumption)]
    exact .refl _
  · split at h
    · subst h; exact List.nil_sublist _
    · obtain ⟨data, crosses, rfl, -⟩ := h
      rw [if_neg (by assumption)]
      exact .refl _

theorem files_nodup {n : Nat} {ws : List (Seen K)} {eqSteps : List Int} {pivots : List Nat} (executionId : String) {cols : List String}
    {parts : List (List (Figure K))} (h : List.Forall₂ (Drawn n ws eqSteps pivots) cols parts) (hn : cols.Nodup) (hc : ∀ x ∈ cols, x ∈ colourNames) :
    (parts.flatten.map (·.file executionId)).Nodup := by
  have hs : (parts.flatten.map (·.file executionId)).Sublist (cols.map (graphFile executionId)) := by
    clear hn hc
    induction h with
    | nil => exact .refl _
    | @cons name figs cols' parts' h0 ht ih =>
      rw [List.flatten_cons, List.map_append, List.map_cons]
      exact (h0.files executionId).append ih
  refine hs.nodup ?_
  exact List.Nodup.map_on (fun x hx y hy he => graphFile_injective executionId (hc x hx) (hc y hy) he) hn

/-- what the metrics of a world are computed from -/
def seen (solver : State K → K) (w : Nat × Nat × State K) : Seen K := (⟨w.2.1, w.1, solver⟩, w.2.2)

/-- `n` stays the same unless a list of values was given for it -/
theorem history_n {a : Args K} {b : Built K} {solver : State K → K} {t : Turns} (hn : ∀ p, a.n.later p = none) {w w' : Nat × Nat × State K}
    {h : List (Round (Nat × Nat × State K))} (hh : History (runEnv a b solver t) w h w') : w'.2.1 = w.2.1 ∧ ∀ r ∈ h, r.before.2.1 = w.2.1 := by
  have round : ∀ {i : Nat} {u v : Nat × Nat × State K}, (runEnv a b solver t).round i u = .ok v → v.2.1 = u.2.1 := by
    intro i u v hr
    obtain ⟨s, -, hr⟩ := bind_ok hr
    cases hr; rfl
  induction hh with
  | start => exact ⟨rfl, by simp⟩
  | round h1 h2 ih =>
    refine ⟨(round h2).trans ih.1, fun r hr => ?_⟩
    rcases List.mem_append.1 hr with hr | hr
    · exact ih.2 r hr
    · rw [List.mem_singleton] at hr; subst hr; exact ih.1
  | change h1 h2 h3 ih =>
    refine ⟨?_, fun r hr => ?_⟩
    · obtain ⟨s, -, h3⟩ := bind_ok h3
      cases h3
      change (a.n.later _).getD _ = _
      rw [hn]
      exact (round h2).trans ih.1
    · rcases List.mem_append.1 hr with hr | hr
      · exact ih.2 r hr
      · rw [List.mem_singleton] at hr; subst hr; exact ih.1

/-- C82.  Whenever a run ends, its graphs can be drawn.  There is a history `h` of its rounds such that, `ws` being the states in which the rounds start (and
the final state, if the run ended because of `max_iterations`), each collected metric is drawn as `Drawn` says: one curve per metric with a number as value
(through the values in `ws`), one stacked chart for 'Stake per agent', nothing for 'Stake per agent id' and 'StakePairs'.  The crosses are at the rounds that
are the first with new parameters.  No two graphs are written to the same file. -/
theorem C82_graphs {a : Args K} {b : Built K} {solver : State K → K} {t : Turns} {m : Int} (hm : a.maxIter = .one m) (h0 : 0 ≤ m)
    (hn : ∀ p, a.n.later p = none) {metrics : List Nat} (hcols : columns metrics = .ok b.cols) {fuel : Nat}
    {l : Loop (Nat × Nat × State K) (List (MetricValue K))}
    (hl : Loop.runModel (runEnv a b solver t) fuel (Loop.init (0, b.n, initState b.config) m) = .ok l) :
    ∃ h w' ws parts, History (runEnv a b solver t) (0, b.n, { initState b.config with idSeq := 0 }) h w' ∧ h.length = l.steps ∧
      (ws = h.map (fun r => seen solver r.before) ∨ ws = h.map (fun r => seen solver r.before) ++ [seen solver l.world]) ∧
      ws.length = l.rows.length ∧
      exportGraphs b.cols l.rows l.eqSteps l.pivots = .ok parts.flatten ∧ List.Forall₂ (Drawn b.n ws l.eqSteps l.pivots) b.cols parts ∧
      (∀ p, p ∈ l.pivots ↔ ∃ i, ∃ hi : i < h.length, p = i + 1 ∧ (h[i]).phaseChange = true) ∧
      ∀ executionId, (parts.flatten.map (·.file executionId)).Nodup := by
  have hmax : ∀ p, (runEnv a b solver t).newMax p = none := fun p => by change a.maxIter.later p = none; rw [hm]; rfl
  have hnodup : b.cols.Nodup := by
    obtain ⟨names, -, hc⟩ := bind_ok hcols
    rw [← Except.ok.inj hc]
    exact nodup_eraseDups _
  obtain ⟨-, -, -, -, hpiv, -⟩ := C38_pivots _ hmax _ m h0 fuel l hl
  obtain ⟨h, -, -, hle, hh⟩ := (Track.init (runEnv a b solver t) (0, b.n, { initState b.config with idSeq := 0 }) m).loop_max hmax fuel (by simpa [Loop.init] using h0) hl
  have main : ∀ (ws : List (Nat × Nat × State K)), ws ≠ [] → (∀ w ∈ ws, w.2.1 = b.n) →
      List.Forall₂ (fun w row => (runEnv a b solver t).report w = .ok row) ws l.rows →
      (ws.map (seen solver)).length = l.rows.length ∧ ∃ parts, exportGraphs b.cols l.rows l.eqSteps l.pivots = .ok parts.flatten ∧
        List.Forall₂ (Drawn b.n (ws.map (seen solver)) l.eqSteps l.pivots) b.cols parts ∧
        ∀ executionId, (parts.flatten.map (·.file executionId)).Nodup := by
    intro ws hne hw hf
    have hf' : List.Forall₂ (fun (w : Seen K) row => collectRow w.1 b.cols w.2 = .ok row) (ws.map (seen solver)) l.rows :=
      List.forall₂_map_left_iff.2 hf
    obtain ⟨parts, p1, p2⟩ := graphs_of_rows (n := b.n) (by
      intro w hw'
      obtain ⟨x, hx, rfl⟩ := List.mem_map.1 hw'
      exact hw x hx) (fun h => hne (List.map_eq_nil_iff.1 h)) hf' l.eqSteps (fun p hp => by rw [hf'.length_eq]; exact hpiv p hp)
    refine ⟨hf'.length_eq, parts, p1, p2, fun id => files_nodup id p2 hnodup ?_⟩
    intro x hx
    obtain ⟨w, hw'⟩ := List.exists_mem_of_ne_nil ws hne
    obtain ⟨i, hi⟩ := List.mem_iff_getElem?.1 hw'
    obtain ⟨row, -, h1⟩ := forall₂_at hf hi
    obtain ⟨j, hj⟩ := List.mem_iff_getElem?.1 hx
    obtain ⟨v, -, hv⟩ := forall₂_at (forall₂_of_mapM h1) hj
    exact (column_kind hv).1
  rcases hh with hh | hh
  · obtain ⟨row, r1, rs, r2, r3⟩ := hh.rows
    obtain ⟨e1, e2⟩ := history_n hn hh.hist
    obtain ⟨m1, parts, m2, m3, m4⟩ := main (h.map (·.before) ++ [l.world]) (by simp) (by
      intro w hw
      rcases List.mem_append.1 hw with hw | hw
      · obtain ⟨r, hr, rfl⟩ := List.mem_map.1 hw
        exact e2 r hr
      · rw [List.mem_singleton] at hw; subst hw; exact e1) (by
      rw [r2]
      exact List.rel_append (List.forall₂_map_left_iff.2 r3) (.cons r1 .nil))
    refine ⟨h, _, _, parts, hh.hist, hh.steps.symm, .inr ?_, m1, m2, m3, fun p => by rw [hh.pivots, pivotsOf_spec], m4⟩
    rw [List.map_append, List.map_map]
    rfl
  · obtain ⟨e1, e2⟩ := history_n hn hh.hist
    obtain ⟨h₀, w₀, hpre, -⟩ := hh.prefix'
    obtain ⟨m1, parts, m2, m3, m4⟩ := main (h.map (·.before)) (by rw [hpre]; simp) (by
      intro w hw
      obtain ⟨r, hr, rfl⟩ := List.mem_map.1 hw
      exact e2 r hr) (List.forall₂_map_left_iff.2 hh.rows)
    refine ⟨h, _, _, parts, hh.hist, hh.steps.symm, .inl ?_, m1, m2, m3, fun p => by rw [hh.pivots, pivotsOf_spec], m4⟩
    rw [List.map_map]
    rfl

/-- C82.  In particular the graphs of a simulation with accepted arguments (one value for `n` and for `max_iterations`) can be drawn whenever it ends (C78 says
when it does). -/
theorem C82_simulate [FloorSemiring K] {a : Args K} {d : Draws K} {n : Nat} (hacc : Accepted a d n) {m : Int} (hm : a.maxIter = .one m) {solver : State K → K} {t : Turns}
    {fuel : Nat} {l : Loop (Nat × Nat × State K) (List (MetricValue K))} (hl : simulate a d solver t fuel = .ok l) :
    ∃ b figs, construct a d = .ok b ∧ exportGraphs b.cols l.rows l.eqSteps l.pivots = .ok figs ∧
      ∀ executionId, (figs.map (·.file executionId)).Nodup := by
  obtain ⟨b, hb, hf⟩ := C77_constructor hacc
  unfold simulate at hl
  rw [hb] at hl
  have hbm : b.maxIter = m := by
    have := hf.maxIter
    rw [hm] at this
    exact (Except.ok.inj this).symm
  have hm1 : 1 ≤ m := by have := hacc.maxIter; rw [hm] at this; exact this
  have hl : Loop.runModel (runEnv a b solver t) fuel (Loop.init (0, b.n, initState b.config) b.maxIter) = .ok l := hl
  rw [hbm] at hl
  obtain ⟨-, -, -, parts, -, -, -, -, h1, -, -, h2⟩ := C82_graphs hm (by omega) (fun p => by rw [hacc.n]; rfl) hf.cols hl
  exact ⟨b, _, hb, h1, h2⟩

/-! ### Examples -/

/-- the simulation of `cliArgs` ends and its graphs can be drawn -/
example : ∃ b l figs, construct cliArgs cliDraws = .ok b ∧ simulate cliArgs cliDraws (fun _ => 0) cliTurns 51 = .ok l ∧
    exportGraphs b.cols l.rows l.eqSteps l.pivots = .ok figs := by
  obtain ⟨b, l, h1, h2, -⟩ := C78_completes_phases cli_accepted cli_relaxing rfl rfl rfl (.inl rfl) rfl (fun h => by cases h) cliTurns_ok (fun _ => 0) id id
  obtain ⟨b', figs, h3, h4, -⟩ := C82_simulate cli_accepted rfl h2
  exact ⟨b', l, figs, h3, h2, h4⟩

/-- three rows, new parameters from round 2 on: the cross is at round 2, the stacked chart begins with round 1 -/
example : exportGraphs (F := ℚ) ["Pool count", "Stake per agent", "StakePairs"]
    [[.nat 0, .nums [0, 0], .pairs ⟨[], [], [], [], []⟩], [.nat 1, .nums [1/2, 0], .pairs ⟨[1/2], [1/2], [0], [1], [0]⟩],
     [.nat 2, .nums [1/2, 1/4], .pairs ⟨[1/2, 1/4], [1/2, 1/4], [0, 0], [1, 2], [0, 1]⟩]] [1] [2]
    = .ok [.line "Pool count" [.nat 0, .nat 1, .nat 2] [1] [(2, .nat 2)], .area [1, 2] [[1/2, 1/2], [0, 1/4]]] := rfl

/-- a cross at a round without a row would raise -/
example : exportGraphs (F := ℚ) ["Pool count"] [[.nat 0], [.nat 1]] [] [2] = .error .key := rfl

/-- so would lists of different lengths -/
example : exportGraphs (F := ℚ) ["Stake per agent"] [[.nums [0]], [.nums [0, 1]]] [] [] = .error .value := rfl

example : (columns [1, 26, 21]).toOption = some ["Pool count", "Stake per agent", "StakePairs"] := by decide

end RSE.Props
