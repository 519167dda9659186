import Verif.Props.BatchRow

/-!
# C37: which steps a batch run returns, for any collection period
-/

set_option linter.unusedSectionVars false

namespace RSE.Props

variable {W R : Type}

theorem mem_rangeBy {n p i : Nat} (hp : 0 < p) : i ∈ Loop.rangeBy n p ↔ i < n ∧ p ∣ i := by
  have key : ∀ j, j < (n + p - 1) / p ↔ j * p < n := by
    intro j
    rw [Nat.lt_iff_add_one_le, Nat.le_div_iff_mul_le hp, Nat.add_mul]
    omega
  simp only [Loop.rangeBy, List.mem_map, List.mem_range]
  constructor
  · rintro ⟨j, hj, rfl⟩
    exact ⟨(key j).1 hj, Dvd.intro_left j rfl⟩
  · rintro ⟨h1, j, rfl⟩
    exact ⟨j, (key j).2 (by rw [Nat.mul_comm]; exact h1), Nat.mul_comm _ _⟩

theorem rangeBy_sorted {n p : Nat} (hp : 0 < p) : (Loop.rangeBy n p).Pairwise (· < ·) := by
  unfold Loop.rangeBy
  rw [List.pairwise_map]
  exact List.pairwise_lt_range.imp (fun h => Nat.mul_lt_mul_of_pos_right h hp)

/-- the steps that the batch runner looks at -/
theorem sampledSteps_ok {n : Nat} (hn : 0 < n) {p : Int} (hp : 0 < p) : ∃ l, Loop.sampledSteps n p = .ok l ∧ l.Pairwise (· < ·) ∧
    l.getLast? = some ((n : Int) - 1) ∧ ∀ i, i ∈ l ↔ 0 ≤ i ∧ i < n ∧ (p ∣ i ∨ i = (n : Int) - 1) := by
  obtain ⟨q, rfl⟩ := Int.eq_ofNat_of_zero_le hp.le
  have hq : 0 < q := by omega
  unfold Loop.sampledSteps
  simp only [if_neg (ne_of_gt hp), if_pos hp, Int.toNat_natCast]
  have hmem : ∀ i : Int, i ∈ (Loop.rangeBy n q).map (fun i : Nat => (i : Int)) ↔ 0 ≤ i ∧ i < n ∧ (q : Int) ∣ i := by
    intro i
    simp only [List.mem_map, mem_rangeBy hq]
    constructor
    · rintro ⟨j, ⟨h1, h2⟩, rfl⟩
      exact ⟨by omega, by omega, Int.natCast_dvd_natCast.2 h2⟩
    · rintro ⟨h1, h2, h3⟩
      obtain ⟨j, rfl⟩ := Int.eq_ofNat_of_zero_le h1
      exact ⟨j, ⟨by omega, Int.natCast_dvd_natCast.1 h3⟩, rfl⟩
  have hsort : ((Loop.rangeBy n q).map (fun i : Nat => (i : Int))).Pairwise (· < ·) := by
    rw [List.pairwise_map]
    exact (rangeBy_sorted hq).imp (fun h => by omega)
  generalize (Loop.rangeBy n q).map (fun i : Nat => (i : Int)) = l at hmem hsort
  split
  · rename_i hlast
    refine ⟨l, rfl, hsort, hlast, fun i => ?_⟩
    rw [hmem]
    constructor
    · rintro ⟨h1, h2, h3⟩; exact ⟨h1, h2, .inl h3⟩
    · rintro ⟨h1, h2, h3 | rfl⟩
      · exact ⟨h1, h2, h3⟩
      · exact (hmem _).1 (List.mem_of_getLast? hlast)
  · rename_i hlast
    refine ⟨_, rfl, ?_, by simp, fun i => ?_⟩
    · rw [List.pairwise_append]
      refine ⟨hsort, by simp, fun a ha b hb => ?_⟩
      rw [List.mem_singleton] at hb
      subst hb
      have h1 := (hmem a).1 ha
      rcases lt_or_ge a ((n : Int) - 1) with h | h
      · exact h
      · exfalso
        have ha' : a = (n : Int) - 1 := by omega
        subst ha'
        apply hlast
        obtain ⟨l₁, l₂, rfl⟩ := List.append_of_mem ha
        cases l₂ with
        | nil => simp
        | cons b l₂ =>
          have h2 : (n : Int) - 1 < b := by
            rw [List.pairwise_append] at hsort
            exact (List.pairwise_cons.1 hsort.2.1).1 b List.mem_cons_self
          have h3 := (hmem b).1 (by simp)
          omega
    · rw [List.mem_append, List.mem_singleton, hmem]
      constructor
      · rintro (⟨h1, h2, h3⟩ | rfl)
        · exact ⟨h1, h2, .inl h3⟩
        · exact ⟨by omega, by omega, .inr rfl⟩
      · rintro ⟨h1, h2, h3 | h3⟩
        · exact .inl ⟨h1, h2, h3⟩
        · exact .inr h3

theorem mapM_rows {rows : List R} : ∀ {steps : List Int} {data : List (Int × R)},
    steps.mapM (fun i => (do let r ← Loop.pyIndex rows i; return (i, r) : Py (Int × R))) = .ok data →
    data.map Prod.fst = steps ∧ ∀ d ∈ data, Loop.pyIndex rows d.1 = .ok d.2 := by
  intro steps
  induction steps with
  | nil => intro data h; cases h; exact ⟨rfl, by simp⟩
  | cons i steps ih =>
    intro data h
    rw [List.mapM_cons] at h
    obtain ⟨x, hx, h⟩ := bind_ok h
    obtain ⟨r, hr, hx⟩ := bind_ok hx
    obtain ⟨rest, hrest, h⟩ := bind_ok h
    cases hx; cases h
    obtain ⟨h1, h2⟩ := ih hrest
    refine ⟨by rw [List.map_cons, h1], ?_⟩
    intro d hd
    rcases List.mem_cons.1 hd with rfl | hd
    · exact hr
    · exact h2 d hd

/-- C37, for a positive collection period.  The data returned for a run are those of the steps that are multiples of the period, and of the last one; in order, each
once; and with step `i` come the metrics of the state in which round `i` started.  Only the row of the last step goes to the aggregate file. -/
theorem C37_sampled (env : Env W R) (hm : ∀ p, env.newMax p = none) (w : W) (m : Int) (h0 : 0 < m) (period : Int) (hp : 0 < period) (fuel : Nat) (l : Loop W R)
    (data : List (Int × R)) (agg : List R) (hl : Loop.batchRun env m period fuel (Loop.init w m) = .ok (l, data, agg)) :
    ∃ h w', History env w h w' ∧ h.length = l.steps ∧ (data.map Prod.fst).Pairwise (· < ·) ∧
      (∀ i : Int, i ∈ data.map Prod.fst ↔ 0 ≤ i ∧ i < l.steps ∧ (period ∣ i ∨ i = (l.steps : Int) - 1)) ∧
      (∀ d ∈ data, ∃ r ∈ h[d.1.toNat]?, env.report r.before = .ok d.2) ∧
      ∃ row, data.getLast? = some ((l.steps : Int) - 1, row) ∧ agg = [row] := by
  unfold Loop.batchRun at hl
  obtain ⟨l₁, hl₁, hl⟩ := bind_ok hl
  rw [batchLoop_eq hm m fuel _ rfl] at hl₁
  obtain ⟨steps, hst, hl⟩ := bind_ok hl
  obtain ⟨data', hd, hl⟩ := bind_ok hl
  cases hl
  obtain ⟨h, -, hmeq, hle, hh⟩ := (Track.init env w m).loop_max hm fuel (by simpa [Loop.init] using h0.le) hl₁
  obtain ⟨d1, d2⟩ := mapM_rows hd
  have main : ∀ (hs : l.steps = h.length) (hpos : 0 < h.length) (rs : List R),
      List.Forall₂ (fun r row => env.report r.before = .ok row) h rs → (∀ i, i < h.length → l.rows[i]? = rs[i]?) →
      (data.map Prod.fst).Pairwise (· < ·) ∧
      (∀ i : Int, i ∈ data.map Prod.fst ↔ 0 ≤ i ∧ i < l.steps ∧ (period ∣ i ∨ i = (l.steps : Int) - 1)) ∧
      (∀ d ∈ data, ∃ r ∈ h[d.1.toNat]?, env.report r.before = .ok d.2) ∧
      ∃ row, data.getLast? = some ((l.steps : Int) - 1, row) ∧
        (data.filter (fun d => decide (d.1 = (l.steps : Int) - 1))).map Prod.snd = [row] := by
    intro hs hpos rs hf hrs
    obtain ⟨l', h1, h2, h3, h4⟩ := sampledSteps_ok (n := l.steps) (by omega) hp
    rw [h1] at hst
    cases hst
    rw [d1]
    refine ⟨h2, h4, ?_, ?_⟩
    · intro d hdm
      have hin : d.1 ∈ steps := by rw [← d1]; exact List.mem_map_of_mem hdm
      obtain ⟨g1, g2, -⟩ := (h4 d.1).1 hin
      have hlt : d.1.toNat < h.length := by omega
      refine ⟨h[d.1.toNat], List.getElem?_eq_getElem hlt, ?_⟩
      have hidx := d2 d hdm
      unfold Loop.pyIndex at hidx
      have hlt' : d.1.toNat < rs.length := by rw [← hf.length_eq]; exact hlt
      simp only [if_neg (show ¬ d.1 < 0 by omega), hrs _ hlt, List.getElem?_eq_getElem hlt'] at hidx
      injection hidx with hidx
      rw [← hidx]
      exact hf.get hlt hlt'
    · rw [← d1, List.getLast?_map, Option.map_eq_some_iff] at h3
      obtain ⟨⟨i, row⟩, g1, g2⟩ := h3
      simp only at g2
      subst g2
      refine ⟨row, g1, ?_⟩
      obtain ⟨pre, rfl⟩ : ∃ pre, data = pre ++ [((l.steps : Int) - 1, row)] := by
        rw [List.getLast?_eq_some_iff] at g1; exact g1
      rw [← d1, List.map_append, List.pairwise_append] at h2
      rw [List.filter_append, List.filter_eq_nil_iff.2]
      · simp
      · intro a ha
        have := h2.2.2 a.1 (List.mem_map_of_mem ha) ((l.steps : Int) - 1) (by simp)
        simp only [decide_eq_true_eq]
        omega
  rcases hh with hh | hh
  · have hlen : (h.length : Int) = m := by have := hh.max; rw [hmeq] at this; exact le_antisymm hle this
    obtain ⟨row, hrow, rs, hrs, hf⟩ := hh.rows
    exact ⟨h, _, hh.hist, hh.steps.symm, main hh.steps (by omega) rs hf (by
      intro i hi; rw [hrs, List.getElem?_append_left (by rw [← hf.length_eq]; exact hi)])⟩
  · obtain ⟨h₀, w₀, hpre, -⟩ := hh.prefix'
    have hpos : 0 < h.length := by rw [hpre]; simp
    exact ⟨h, _, hh.hist, hh.steps.symm, main hh.steps hpos l.rows hh.rows (fun _ _ => rfl)⟩

/-- the number of pools in every third state of a run of 6 steps, and in the last one -/
example : (Loop.batchRun (demoEnv 3 1 {} none) 9 3 17 (Loop.init (initState (demo false)) 9)).toOption.map (fun r => (r.1.steps, r.2)) =
    some (6, [(0, 0), (3, 4), (5, 4)], [4]) := by decide +kernel

/-- A collection period of 0 is an error, after the whole run. -/
theorem C37_period_zero (env : Env W R) (m : Int) (fuel : Nat) (l l' : Loop W R) (h : Loop.batchLoop env m fuel l = .ok l') :
    Loop.batchRun env m 0 fuel l = .error .value := by
  unfold Loop.batchRun
  rw [h]
  rfl

end RSE.Props
