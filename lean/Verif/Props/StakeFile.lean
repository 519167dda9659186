import Verif.Model.StakeFile
import Verif.Props.Distr
import Mathlib.Data.List.Perm.Subperm

/-!
# C110: stakes that are read from a file

docs/configuration.md, about `--stake_distr_source`: the file is expected to "contain only stake values separated by commas".
-/

set_option linter.unusedSectionVars false

namespace RSE.Props

variable {K : Type} [Field K] [LinearOrder K] [IsStrictOrderedRing K]

/-! ### Texts -/

/-- lines with a newline after each -/
def withNewlines (ls : List Text) : Text := ls.flatMap (fun l => l ++ ['\n'])

/-- values with commas between them -/
def withCommas : List Text → Text
  | [] => []
  | [t] => t
  | t :: u :: ts => t ++ ',' :: withCommas (u :: ts)

/-- a text that may stand for a number: not empty, no comma, no newline -/
def PlainText (t : Text) : Prop := t ≠ [] ∧ ',' ∉ t ∧ '\n' ∉ t

theorem fileLines_line (l rest : Text) (h : '\n' ∉ l) : fileLines (l ++ '\n' :: rest) = l :: fileLines rest := by
  induction l with
  | nil => rw [List.nil_append, fileLines, if_pos rfl]
  | cons c cs ih =>
    rw [List.cons_append, fileLines, if_neg (fun hc => h (by simp [hc])), ih (fun hc => h (List.mem_cons_of_mem _ hc))]

theorem fileLines_last (l : Text) (h : '\n' ∉ l) (hne : l ≠ []) : fileLines l = [l] := by
  induction l with
  | nil => exact absurd rfl hne
  | cons c cs ih =>
    rw [fileLines, if_neg (fun hc => h (by simp [hc]))]
    cases cs with
    | nil => rfl
    | cons d ds => rw [ih (fun hc => h (List.mem_cons_of_mem _ hc)) (by simp)]

theorem fileLines_lines (ls : List Text) (rest : Text) (h : ∀ l ∈ ls, '\n' ∉ l) : fileLines (withNewlines ls ++ rest) = ls ++ fileLines rest := by
  induction ls with
  | nil => rfl
  | cons l t ih =>
    have e : withNewlines (l :: t) ++ rest = l ++ '\n' :: (withNewlines t ++ rest) := by simp [withNewlines]
    rw [e, fileLines_line _ _ (h l (by simp)), ih (fun x hx => h x (List.mem_cons_of_mem _ hx)), List.cons_append]

theorem splitComma_single (t : Text) (h : ',' ∉ t) : splitComma t = [t] := by
  induction t with
  | nil => rfl
  | cons c cs ih => rw [splitComma, if_neg (fun hc => h (by simp [hc])), ih (fun hc => h (List.mem_cons_of_mem _ hc))]

theorem splitComma_more (t rest : Text) (h : ',' ∉ t) : splitComma (t ++ ',' :: rest) = t :: splitComma rest := by
  induction t with
  | nil => rw [List.nil_append, splitComma, if_pos rfl]
  | cons c cs ih => rw [List.cons_append, splitComma, if_neg (fun hc => h (by simp [hc])), ih (fun hc => h (List.mem_cons_of_mem _ hc))]

/-- the first field of a line that starts with a value -/
theorem rowHead_plain {t : Text} (h : PlainText t) (ts : List Text) : rowHead (csvRow (withCommas (t :: ts))) = .ok t := by
  unfold csvRow
  cases ts with
  | nil =>
    change rowHead (if t = [] then [] else splitComma t) = _
    rw [if_neg h.1, splitComma_single t h.2.1]; rfl
  | cons u us =>
    change rowHead (if t ++ ',' :: withCommas (u :: us) = [] then [] else splitComma (t ++ ',' :: withCommas (u :: us))) = _
    rw [if_neg (by simp), splitComma_more _ _ h.2.1]; rfl

theorem noNewline_withCommas (ts : List Text) (h : ∀ t ∈ ts, PlainText t) : '\n' ∉ withCommas ts := by
  induction ts with
  | nil => simp [withCommas]
  | cons t us ih =>
    cases us with
    | nil => exact (h t (by simp)).2.2
    | cons u vs =>
      change '\n' ∉ t ++ ',' :: withCommas (u :: vs)
      have h1 := (h t (by simp)).2.2
      have h2 := ih (fun x hx => h x (List.mem_cons_of_mem _ hx))
      simp only [List.mem_append, List.mem_cons, not_or]
      exact ⟨h1, by decide, h2⟩

/-! ### C110 -/

variable {parse : Text → Py K}

/-- C110.  `rows` lists for each line its first value and the rest of the line; only the first values count (with or without a newline at the end of the file). -/
theorem C110_first_of_each_line {rows : List ((Text × K) × List Text)} (h : ∀ r ∈ rows, parse r.1.1 = .ok r.1.2 ∧ ∀ t ∈ r.1.1 :: r.2, PlainText t) :
    readStakes parse (withNewlines (rows.map (fun r => withCommas (r.1.1 :: r.2)))) = .ok (rows.map (fun r => r.1.2)) ∧
    ∀ init r, rows = init ++ [r] →
      readStakes parse (withNewlines (init.map (fun r => withCommas (r.1.1 :: r.2))) ++ withCommas (r.1.1 :: r.2)) = .ok (rows.map (fun r => r.1.2)) := by
  have key : ∀ l : List ((Text × K) × List Text), (∀ r ∈ l, parse r.1.1 = .ok r.1.2 ∧ ∀ t ∈ r.1.1 :: r.2, PlainText t) →
      (l.map (fun r => withCommas (r.1.1 :: r.2))).mapM (fun l => do parse (← rowHead (csvRow l))) = .ok (l.map (fun r => r.1.2)) := by
    intro l hl
    induction l with
    | nil => rfl
    | cons r t ih =>
      rw [List.map_cons, List.mapM_cons, rowHead_plain ((hl r (by simp)).2 r.1.1 (by simp))]
      change (parse r.1.1 >>= fun _ => _) = _
      rw [(hl r (by simp)).1, ih (fun x hx => hl x (List.mem_cons_of_mem _ hx))]
      rfl
  have nonl : ∀ r ∈ rows, '\n' ∉ withCommas (r.1.1 :: r.2) := fun r hr => noNewline_withCommas _ (h r hr).2
  constructor
  · unfold readStakes
    have e := fileLines_lines (rows.map (fun r => withCommas (r.1.1 :: r.2))) [] (by
      intro l hl
      obtain ⟨r, hr, rfl⟩ := List.mem_map.1 hl
      exact nonl r hr)
    rw [List.append_nil] at e
    rw [e, show fileLines [] = [] from rfl, List.append_nil]
    exact key rows h
  · rintro init r rfl
    unfold readStakes
    rw [fileLines_lines _ _ (by
      intro l hl
      obtain ⟨r', hr, rfl⟩ := List.mem_map.1 hl
      exact nonl r' (List.mem_append_left _ hr)), fileLines_last _ (nonl r (by simp)) ?_]
    · have := key (init ++ [r]) h
      rw [List.map_append] at this
      exact this
    · have h1 := ((h r (by simp)).2 r.1.1 (by simp)).1
      cases hr : r.2 with
      | nil => exact h1
      | cons u us => simp [withCommas]

/-- C110.  A file with as many lines as agents and one value on each line: the agents get the values in that order. -/
theorem C110_one_value_per_line {vals : List (Text × K)} (h : ∀ v ∈ vals, parse v.1 = .ok v.2 ∧ PlainText v.1) (fallback : Option Text) (choice : Nat → Nat) :
    stakesFromFile parse (some (withNewlines (vals.map (·.1)))) fallback vals.length choice = some (.ok (vals.map (·.2))) := by
  have h1 := (C110_first_of_each_line (parse := parse) (rows := vals.map (fun v => (v, []))) (by
    intro r hr
    obtain ⟨v, hv, rfl⟩ := List.mem_map.1 hr
    exact ⟨(h v hv).1, by simpa using (h v hv).2⟩)).1
  rw [List.map_map, List.map_map] at h1
  change readStakes parse (withNewlines (vals.map (fun v => v.1))) = .ok (vals.map (fun v => v.2)) at h1
  unfold stakesFromFile
  rw [Option.some_or]
  change some (readStakes parse (withNewlines (vals.map (fun v => v.1))) >>= _) = _
  rw [h1]
  change some (stakesFile vals.length (vals.map (fun v => v.2)) choice) = _
  rw [stakesFile, if_pos (by simp)]

/-- C110 (the documentation is wrong).  In a file in the documented form, values separated by commas, everything but the first value is ignored: all agents get the same
stake, whatever the values are. -/
theorem C110_separated_by_commas {t : Text} {v : K} (ts : List Text) (hv : parse t = .ok v) (h : ∀ u ∈ t :: ts, PlainText u) (fallback : Option Text) (n : Nat)
    (choice : Nat → Nat) :
    stakesFromFile parse (some (withCommas (t :: ts))) fallback n choice = some (.ok (List.replicate n v)) := by
  have h1 := (C110_first_of_each_line (parse := parse) (rows := [((t, v), ts)]) (by
    intro r hr
    rw [List.mem_singleton] at hr
    subst hr
    exact ⟨hv, h⟩)).2 [] _ rfl
  change readStakes parse (withCommas (t :: ts)) = .ok [v] at h1
  unfold stakesFromFile
  rw [Option.some_or]
  change some (readStakes parse (withCommas (t :: ts)) >>= _) = _
  rw [h1]
  change some (stakesFile n [v] choice) = _
  unfold stakesFile
  by_cases hn : n = [v].length
  · rw [if_pos hn, hn]; rfl
  · rw [if_neg hn, if_neg (by simp)]
    congr 2
    apply List.ext_getElem
    · simp
    · intro i h1 h2
      simp [Nat.mod_one]

/-- C110.  After normalisation every agent then has the same share. -/
theorem C110_commas_flat {t : Text} {v : K} (ts : List Text) (hv : parse t = .ok v) (hpos : 0 < v) (h : ∀ u ∈ t :: ts, PlainText u) (fallback : Option Text)
    {n : Nat} (hn : 1 ≤ n) (choice : Nat → Nat) :
    ∃ stakes, stakesFromFile parse (some (withCommas (t :: ts))) fallback n choice = some (.ok stakes) ∧
      initialStakes stakes 0 = .ok (List.replicate n (1 / (n : K)), 1) := by
  refine ⟨_, C110_separated_by_commas ts hv h fallback n choice, ?_⟩
  obtain ⟨m, rfl⟩ : ∃ m, n = m + 1 := ⟨n - 1, by omega⟩
  have hm : (0 : K) < (m : K) + 1 := by positivity
  have hsum : (List.replicate m v).sum + v = ((m : K) + 1) * v := by rw [List.sum_replicate, nsmul_eq_mul]; ring
  rw [List.replicate_succ', List.replicate_succ', initialStakes_snoc _ _ _ (by rw [hsum]; positivity) (by norm_num), hsum]
  push_cast
  by_cases h1 : ((m : K) + 1) * v = 1 - 0
  · rw [if_pos h1]
    have : v = 1 / ((m : K) + 1) := by rw [eq_div_iff hm.ne', mul_comm, h1, sub_zero]
    rw [this]
  · rw [if_neg h1]
    have e : (1 - 0) * v / (((m : K) + 1) * v) = 1 / ((m : K) + 1) := by
      rw [sub_zero, one_mul]; field_simp
    rw [List.map_replicate, e, add_zero]

/-- C110.  More agents or fewer agents than values: each agent gets one of the values. -/
theorem C110_drawn (file : List K) (n : Nat) (choice : Nat → Nat) (hne : file ≠ []) :
    ∃ stakes, stakesFile n file choice = .ok stakes ∧ stakes.length = n ∧ ∀ x ∈ stakes, x ∈ file := by
  unfold stakesFile
  have hlen : 0 < file.length := List.length_pos_iff.2 hne
  by_cases h : n = file.length
  · exact ⟨file, by rw [if_pos h], h.symm, fun x hx => hx⟩
  · refine ⟨_, by rw [if_neg h, if_neg hlen.ne'], by simp, fun x hx => ?_⟩
    obtain ⟨i, -, rfl⟩ := List.mem_map.1 hx
    have := Nat.mod_lt (choice i) hlen
    rw [List.getD_eq_getElem?_getD, List.getElem?_eq_getElem this]
    exact List.getElem_mem this

/-- C110.  Fewer agents than values (drawn without replacement): no value is given to more agents than there are lines with it. -/
theorem C110_without_replacement (file : List K) (n : Nat) (choice : Nat → Nat) (hn : n < file.length) (hlt : ∀ i < n, choice i < file.length)
    (hinj : ∀ i < n, ∀ j < n, choice i = choice j → i = j) : ∃ stakes, stakesFile n file choice = .ok stakes ∧ stakes.length = n ∧ stakes.Subperm file := by
  unfold stakesFile
  refine ⟨_, by rw [if_neg hn.ne, if_neg (by omega)], by simp, ?_⟩
  have h1 : (List.range n).map (fun i => file.getD (choice i % file.length) 0) = ((List.range n).map choice).map (fun i => file.getD i 0) := by
    rw [List.map_map]
    apply List.map_congr_left
    intro i hi
    rw [Function.comp_apply, Nat.mod_eq_of_lt (hlt i (List.mem_range.1 hi))]
  have h2 : file = (List.range file.length).map (fun i => file.getD i 0) := by
    apply List.ext_getElem
    · simp
    · intro i h3 h4
      simp [List.getElem?_eq_getElem h3]
  have hnd : ((List.range n).map choice).Nodup := by
    rw [List.nodup_map_iff_inj_on List.nodup_range]
    intro i hi j hj e
    exact hinj i (List.mem_range.1 hi) j (List.mem_range.1 hj) e
  have hsub : ((List.range n).map choice).Subperm (List.range file.length) := by
    apply List.subperm_of_subset hnd
    intro x hx
    obtain ⟨i, hi, rfl⟩ := List.mem_map.1 hx
    exact List.mem_range.2 (hlt i (List.mem_range.1 hi))
  obtain ⟨l, hp, hs⟩ := hsub
  rw [h1]
  refine ⟨l.map (fun i => file.getD i 0), hp.map _, ?_⟩
  have := hs.map (fun i => file.getD i 0)
  rwa [← h2] at this

/-- C110.  A blank line raises `IndexError`, even at the end of the file, if the lines before it can be read. -/
theorem C110_blank_line {vals : List (Text × K)} (h : ∀ v ∈ vals, parse v.1 = .ok v.2 ∧ PlainText v.1) (rest : Text) (fallback : Option Text) (n : Nat)
    (choice : Nat → Nat) :
    stakesFromFile parse (some (withNewlines (vals.map (·.1)) ++ '\n' :: rest)) fallback n choice = some (.error .index) := by
  have h1 : readStakes parse (withNewlines (vals.map (·.1)) ++ '\n' :: rest) = .error .index := by
    unfold readStakes
    rw [fileLines_lines _ _ (by
      intro l hl
      obtain ⟨v, hv, rfl⟩ := List.mem_map.1 hl
      exact (h v hv).2.2.2), fileLines, if_pos rfl]
    induction vals with
    | nil => rfl
    | cons v t ih =>
      rw [List.map_cons, List.cons_append, List.mapM_cons]
      have h2 := rowHead_plain (h v (by simp)).2 []
      change rowHead (csvRow v.1) = _ at h2
      rw [h2]
      change (parse v.1 >>= fun _ => _) = _
      rw [(h v (by simp)).1]
      change (((t.map (·.1)) ++ [] :: fileLines rest).mapM (fun l => do parse (← rowHead (csvRow l))) >>= fun _ => _) = _
      rw [ih (fun x hx => h x (List.mem_cons_of_mem _ hx))]
      rfl
  unfold stakesFromFile
  rw [Option.some_or]
  change some (readStakes parse _ >>= _) = _
  rw [h1]
  rfl

/-- C110.  The file for the default number of agents is used only if there is none for this number; without both, `FileNotFoundError`. -/
theorem C110_which_file (own fallback : Option Text) (n : Nat) (choice : Nat → Nat) :
    (∀ t, own = some t → stakesFromFile parse own fallback n choice = stakesFromFile parse (some t) none n choice) ∧
    (own = none → stakesFromFile parse own fallback n choice = stakesFromFile parse fallback none n choice) ∧
    (stakesFromFile parse own fallback n choice = none ↔ own = none ∧ fallback = none) := by
  refine ⟨?_, ?_, ?_⟩
  · rintro t rfl; rfl
  · rintro rfl; cases fallback <;> rfl
  · cases own <;> cases fallback <;> simp [stakesFromFile]

/-! ### Examples -/

/-- digits only -/
def parseDigits (t : Text) : Py ℚ := (parseNat t).map (fun n => (n : ℚ))

example : stakesFromFile parseDigits (some ['5', '\n', '3', '\n', '1', '2', '\n']) none 3 id = some (.ok [5, 3, 12]) := by decide +kernel
example : stakesFromFile parseDigits (some ['5', ',', '3', ',', '1', '2', '\n']) none 3 id = some (.ok [5, 5, 5]) := by decide +kernel
example : stakesFromFile parseDigits (some ['5', '\n', '\n', '3']) none 3 id = some (.error .index) := by decide +kernel

/-- the hypotheses about texts hold of `['1', '2']` -/
example : parseDigits ['1', '2'] = .ok 12 ∧ PlainText ['1', '2'] := ⟨by decide +kernel, by decide, by decide, by decide⟩

/-- two of three values -/
example : stakesFile 2 [(5 : ℚ), 3, 12] (fun i => 2 - i) = .ok [12, 3] := by decide +kernel

end RSE.Props
