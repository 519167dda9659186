import Verif.Lemmas.CommandLine
import Verif.Props.ArgsFile
import Verif.Props.Batch
import Verif.Py.ExceptEq

/-!
# C120: the command lines of main.py and batch-run.py

Proved: a command line is accepted iff it is a sequence of settings (Spec/CommandLine.lean), and then every option has the value of its last setting or its default.  Consequences: which values the
arguments of an execution can have; what options without values do; which documented defaults hold; what batch-run.py makes of its options.
-/

set_option linter.unusedSectionVars false

namespace RSE.Props

open Cmd

variable {R : Reader} {table : List Entry}

/-! ### What is accepted -/

/-- C120.  A command line is accepted iff it is a sequence of settings; then the namespace has every option, in the order of the table, with the value of its last setting, or its default
if there is none. -/
theorem C120_iff (T : Table table) {ws : List Text} {d : ArgDict PyFloat} :
    parse R table ws = .ok d ↔ ∃ gs : List Setting, ws = (gs.map Prod.fst).flatten ∧ (∀ s ∈ gs, Sets R (optionStrings table) s.1 s.2.1 s.2.2) ∧
      d = table.map (fun e => (e.dest, finalValue gs e)) := by
  constructor
  · intro h
    unfold parse at h
    simp only at h
    split at h
    · cases h
    · rename_i hamb
      split at h
      · cases h
      · rename_i ns left hc
        split at h
        · rename_i d' hd
          cases left with
          | true => simp at h
          | false =>
            simp only [Bool.false_eq_true, if_false, Except.ok.injEq] at h
            obtain ⟨h1, h2, gs, h3, h4, rfl⟩ := settings_of_words T.good (by simpa using hamb) hc
            simp only [ne_eq, decide_not, Bool.not_eq_false', decide_eq_true_eq] at h1
            rw [h1, List.nil_append] at h3
            rw [attributes_eq T, Option.some.injEq] at hd
            exact ⟨gs, h3, h4, by rw [← h, hd]⟩
        · cases h
  · rintro ⟨gs, rfl, h, rfl⟩
    obtain ⟨h1, h2, h3⟩ := words_of_settings (ns := fun _ => none) T.good h
    unfold parse
    simp only
    rw [h1, if_neg (by simp), h2]
    simp only [ne_eq, not_true_eq_false, decide_false]
    rw [h3]
    simp only [attributes_eq T]
    simp

def goodDefault : Entry → Bool
  | .opt o => match o.default with
    | .one (.str t) => decide (o.kind = .str) || (decide (o.kind = .lower) && decide (t.map Char.toLower = t))
    | _ => true
  | _ => true

theorem good_defaults {table : List Entry} (h : ∀ e ∈ table, goodDefault e = true) :
    ∀ o, Entry.opt o ∈ table → ∀ t, o.default = .one (.str t) → o.kind = .str ∨ (o.kind = .lower ∧ t.map Char.toLower = t) := by
  intro o ho t ht
  have := h _ ho
  simp only [goodDefault, ht, Bool.or_eq_true, decide_eq_true_eq, Bool.and_eq_true] at this
  exact this

/-- C120.  The options of both scripts are such tables. -/
theorem C120_main : Table mainTable where
  names := by decide +kernel
  dests := by decide +kernel
  noEq := by decide +kernel
  nonempty := by decide +kernel
  defaults := good_defaults (by decide +kernel)

theorem C120_batch : Table batchTable where
  names := by decide +kernel
  dests := by decide +kernel
  noEq := by decide +kernel
  nonempty := by decide +kernel
  defaults := good_defaults (by decide +kernel)

/-- C120.  Nothing else matters: not the order of settings of different options, nor whether names are abbreviated or values are given after `=`. -/
theorem C120_same (T : Table table) {gs gs' : List Setting} (h : ∀ s ∈ gs, Sets R (optionStrings table) s.1 s.2.1 s.2.2) (h' : ∀ s ∈ gs', Sets R (optionStrings table) s.1 s.2.1 s.2.2)
    (hv : ∀ e ∈ table, finalValue gs e = finalValue gs' e) : parse R table (gs.map Prod.fst).flatten = parse R table (gs'.map Prod.fst).flatten := by
  have h1 := (C120_iff (R := R) (d := table.map (fun e => (e.dest, finalValue gs e))) T).2 ⟨gs, rfl, h, rfl⟩
  have h2 := (C120_iff (R := R) (d := table.map (fun e => (e.dest, finalValue gs' e))) T).2 ⟨gs', rfl, h', rfl⟩
  rw [h1, h2, List.map_congr_left (fun e he => by rw [hv e he])]

/-! ### The values of the options -/

theorem value_of_option (T : Table table) {ws : List Text} {d : ArgDict PyFloat} (h : parse R table ws = .ok d) {o : Opt} (ho : Entry.opt o ∈ table) :
    ∃ v, d.get o.dest = .ok v ∧ (v = o.default ∨ ∃ ts, o.nargs.Allows ts.length ∧ o.Gives R ts v) := by
  obtain ⟨gs, -, h1, rfl⟩ := (C120_iff T).1 h
  exact ⟨_, get_namespace T (finalValue gs) ho, finalValue_opt T h1 ho⟩

/-- the default, `None`, or one value that fits -/
def Optional (v default : Value) (P : Atom → Prop) : Prop := v = default ∨ v = .one .none ∨ ∃ a, v = .one a ∧ P a

/-- the default, or a list of values that fit -/
def Several (v default : Value) (P : Atom → Prop) : Prop := v = default ∨ ∃ l, l ≠ [] ∧ v = .list l ∧ ∀ a ∈ l, P a

def IntFrom (m : Int) (a : Atom) : Prop := ∃ i, m ≤ i ∧ a = .int i

/-- a float that is not negative (but possibly infinite or not a number) -/
def NonNegative (a : Atom) : Prop := ∃ x : PyFloat, x.lt 0 = false ∧ a = .float x

theorem forall₂_right {α β : Type} {P : α → β → Prop} {Q : β → Prop} {l : List α} {m : List β} (h : List.Forall₂ P l m) (hq : ∀ x y, P x y → Q y) : ∀ y ∈ m, Q y := by
  induction h with
  | nil => simp
  | cons h _ ih =>
    intro y hy
    rcases List.mem_cons.1 hy with rfl | hy
    · exact hq _ _ h
    · exact ih y hy

theorem optional_of {o : Opt} (hn : o.nargs = .optional) {P : Atom → Prop} (hP : ∀ t a, o.Means R t a → P a) {v : Value}
    (h : v = o.default ∨ ∃ ts, o.nargs.Allows ts.length ∧ o.Gives R ts v) : Optional v o.default P := by
  rcases h with h | ⟨ts, h1, h2⟩
  · exact .inl h
  · rcases h2 with ⟨-, -, h⟩ | ⟨-, t, a, -, h, rfl⟩ | ⟨h, -⟩
    · exact .inr (.inl h)
    · exact .inr (.inr ⟨a, rfl, hP t a h⟩)
    · exact absurd hn h

theorem several_of {o : Opt} (hn : o.nargs = .plus ∨ ∃ m, o.nargs = .exactly (m + 1)) {P : Atom → Prop} (hP : ∀ t a, o.Means R t a → P a) {v : Value}
    (h : v = o.default ∨ ∃ ts, o.nargs.Allows ts.length ∧ o.Gives R ts v) : Several v o.default P := by
  rcases h with h | ⟨ts, h1, h2⟩
  · exact .inl h
  · have h3 : ts ≠ [] := by
      rintro rfl
      rcases hn with hn | ⟨m, hn⟩ <;> rw [hn] at h1 <;> simp [Nargs.Allows] at h1
    rcases h2 with ⟨h, -⟩ | ⟨h, -⟩ | ⟨-, -, as, h, rfl⟩
    · rcases hn with hn | ⟨m, hn⟩ <;> rw [hn] at h <;> cases h
    · rcases hn with hn | ⟨m, hn⟩ <;> rcases h with h | h <;> rw [hn] at h <;> cases h
    · refine .inr ⟨as, ?_, rfl, forall₂_right h hP⟩
      rintro rfl
      cases h
      exact h3 rfl

/-- the option of this name -/
def optOf (table : List Entry) (name : String) : Option Opt := table.findSome? (fun e => match e with
  | .opt o => if o.dest = name then some o else none
  | .switch _ _ => none)

theorem optOf_mem {table : List Entry} {name : String} {o : Opt} (h : optOf table name = some o) : Entry.opt o ∈ table ∧ o.dest = name := by
  obtain ⟨e, he, h⟩ := List.exists_of_findSome?_eq_some h
  cases e with
  | opt o' =>
    simp only at h
    split at h
    · rename_i hd; cases h; exact ⟨he, hd⟩
    · cases h
  | switch _ _ => cases h

theorem optional_arg (T : Table table) {ws : List Text} {d : ArgDict PyFloat} (h : parse R table ws = .ok d) (name : String) {o : Opt} (ho : optOf table name = some o)
    (hn : o.nargs = .optional) {P : Atom → Prop} (hP : ∀ t a, o.Means R t a → P a) : ∃ v, d.get name = .ok v ∧ Optional v o.default P := by
  obtain ⟨h1, rfl⟩ := optOf_mem ho
  obtain ⟨v, h2, h3⟩ := value_of_option T h h1
  exact ⟨v, h2, optional_of hn hP h3⟩

theorem several_arg (T : Table table) {ws : List Text} {d : ArgDict PyFloat} (h : parse R table ws = .ok d) (name : String) {o : Opt} (ho : optOf table name = some o)
    (hn : o.nargs = .plus ∨ ∃ m, o.nargs = .exactly (m + 1)) {P : Atom → Prop} (hP : ∀ t a, o.Means R t a → P a) : ∃ v, d.get name = .ok v ∧ Several v o.default P := by
  obtain ⟨h1, rfl⟩ := optOf_mem ho
  obtain ⟨v, h2, h3⟩ := value_of_option T h h1
  exact ⟨v, h2, several_of hn hP h3⟩

theorem means_positiveInt {o : Opt} (hk : o.kind = .positiveInt) {t : Text} {a : Atom} (h : o.Means R t a) : IntFrom 1 a := by
  have := h.1; rw [hk] at this
  obtain ⟨i, -, hi, rfl⟩ := this
  exact ⟨i, hi, rfl⟩

theorem means_nonNegativeInt {o : Opt} (hk : o.kind = .nonNegativeInt) {t : Text} {a : Atom} (h : o.Means R t a) : IntFrom 0 a := by
  have := h.1; rw [hk] at this
  obtain ⟨i, -, hi, rfl⟩ := this
  exact ⟨i, hi, rfl⟩

theorem means_nonNegativeFloat {o : Opt} (hk : o.kind = .nonNegativeFloat) {t : Text} {a : Atom} (h : o.Means R t a) : NonNegative a := by
  have := h.1; rw [hk] at this
  obtain ⟨i, -, hi, rfl⟩ := this
  exact ⟨i, hi, rfl⟩

theorem means_int {o : Opt} (hk : o.kind = .int) {t : Text} {a : Atom} (h : o.Means R t a) : ∃ i, a = .int i := by
  have := h.1; rw [hk] at this
  obtain ⟨i, -, rfl⟩ := this
  exact ⟨i, rfl⟩

theorem means_choice {o : Opt} {l : List Atom} (hk : o.choices = some l) {t : Text} {a : Atom} (h : o.Means R t a) : a ∈ l := h.2 l hk

/-- C120.  What main.py can be told about numbers of agents and pools, rewards and costs: every accepted command line gives `n` at least 1 (or `None`, after `--n` without a number), a list of `k`
at least 1, and so on.  Costs, thresholds and `a0` are not negative, but can be infinite or not a number; nothing makes `cost_min` smaller than `cost_max`. -/
theorem C120_main_numbers {ws : List Text} {d : ArgDict PyFloat} (h : parse R mainTable ws = .ok d) :
    (∃ v, d.get "n" = .ok v ∧ Optional v (.one (.int 1000)) (IntFrom 1)) ∧
    (∃ v, d.get "k" = .ok v ∧ Several v (.one (.int 100)) (IntFrom 1)) ∧
    (∃ v, d.get "a0" = .ok v ∧ Several v (.one (dec 3 1)) NonNegative) ∧
    (∃ v, d.get "reward_scheme" = .ok v ∧ Optional v (.one (.int 0)) (· ∈ ints [0, 1, 2, 3, 4])) ∧
    (∃ v, d.get "cost_min" = .ok v ∧ Optional v (.one (dec 1 5)) NonNegative) ∧
    (∃ v, d.get "cost_max" = .ok v ∧ Optional v (.one (dec 1 4)) NonNegative) ∧
    (∃ v, d.get "extra_pool_cost_fraction" = .ok v ∧ Optional v (.one (dec 4 1)) NonNegative) ∧
    (∃ v, d.get "absolute_utility_threshold" = .ok v ∧ Optional v (.one (dec 1 9)) NonNegative) ∧
    (∃ v, d.get "relative_utility_threshold" = .ok v ∧ Optional v (.one (.int 0)) NonNegative) :=
  ⟨optional_arg C120_main h "n" rfl rfl (fun _ _ => means_positiveInt rfl),
   several_arg C120_main h "k" rfl (.inl rfl) (fun _ _ => means_positiveInt rfl),
   several_arg C120_main h "a0" rfl (.inl rfl) (fun _ _ => means_nonNegativeFloat rfl),
   optional_arg C120_main h "reward_scheme" rfl rfl (fun _ _ => means_choice rfl),
   optional_arg C120_main h "cost_min" rfl rfl (fun _ _ => means_nonNegativeFloat rfl),
   optional_arg C120_main h "cost_max" rfl rfl (fun _ _ => means_nonNegativeFloat rfl),
   optional_arg C120_main h "extra_pool_cost_fraction" rfl rfl (fun _ _ => means_nonNegativeFloat rfl),
   optional_arg C120_main h "absolute_utility_threshold" rfl rfl (fun _ _ => means_nonNegativeFloat rfl),
   optional_arg C120_main h "relative_utility_threshold" rfl rfl (fun _ _ => means_nonNegativeFloat rfl)⟩

/-- C120.  ... and the rest: the metrics are numbers of metrics, `max_iterations` is at least 1 and the seed not negative, but `iterations_after_convergence` can be any integer. -/
theorem C120_main_others {ws : List Text} {d : ArgDict PyFloat} (h : parse R mainTable ws = .ok d) :
    (∃ v, d.get "agent_activation_order" = .ok v ∧
      Optional v (.one (.str "random".toList)) (· ∈ texts ["random", "sequential", "simultaneous", "semisimultaneous"])) ∧
    (∃ v, d.get "stake_distr_source" = .ok v ∧ Optional v (.one (.str "pareto".toList)) (· ∈ texts ["pareto", "flat", "disparity", "file"])) ∧
    (∃ v, d.get "pareto_param" = .ok v ∧ Optional v (.one (dec 2 0)) (fun a => ∃ x : PyFloat, x.le 0 = false ∧ a = .float x)) ∧
    (∃ v, d.get "inactive_stake_fraction" = .ok v ∧ Optional v (.one (.int 0)) (fun a => ∃ x : PyFloat, x.lt 0 = false ∧ x.gt 1 = false ∧ a = .float x)) ∧
    (∃ v, d.get "iterations_after_convergence" = .ok v ∧ Optional v (.one (.int 10)) (fun a => ∃ i, a = .int i)) ∧
    (∃ v, d.get "max_iterations" = .ok v ∧ Optional v (.one (.int 2000)) (IntFrom 1)) ∧
    (∃ v, d.get "metrics" = .ok v ∧ Several v (.one .none) (fun a => ∃ i : Int, 1 ≤ i ∧ i ≤ 30 ∧ a = .int i)) ∧
    (∃ v, d.get "seed" = .ok v ∧ Optional v (.one .none) (IntFrom 0)) ∧
    (∃ v, d.get "execution_id" = .ok v ∧ Optional v (.one (.str [])) (fun a => ∃ t, a = .str t)) := by
  refine ⟨optional_arg C120_main h "agent_activation_order" rfl rfl (fun _ _ => means_choice rfl),
    optional_arg C120_main h "stake_distr_source" rfl rfl (fun _ _ => means_choice rfl), ?_, ?_,
    optional_arg C120_main h "iterations_after_convergence" rfl rfl (fun _ _ => means_int rfl),
    optional_arg C120_main h "max_iterations" rfl rfl (fun _ _ => means_positiveInt rfl), ?_,
    optional_arg C120_main h "seed" rfl rfl (fun _ _ => means_nonNegativeInt rfl), ?_⟩
  · refine optional_arg C120_main h "pareto_param" rfl rfl (fun _ _ hm => ?_)
    obtain ⟨x, -, h1, h2⟩ := hm.1
    exact ⟨x, h1, h2⟩
  · refine optional_arg C120_main h "inactive_stake_fraction" rfl rfl (fun _ _ hm => ?_)
    obtain ⟨x, -, h1, h2, h3⟩ := hm.1
    exact ⟨x, h1, h2, h3⟩
  · refine several_arg C120_main h "metrics" rfl (.inl rfl) (fun _ _ hm => ?_)
    have := means_choice rfl hm
    simp only [List.mem_map, List.mem_range] at this
    obtain ⟨i, hi, rfl⟩ := this
    exact ⟨i + 1, by omega, by omega, rfl⟩
  · refine optional_arg C120_main h "execution_id" rfl rfl (fun t _ hm => ⟨t, hm.1⟩)

/-- C120.  The weights of the profiles are three, or the default. -/
theorem C120_main_profiles {ws : List Text} {d : ArgDict PyFloat} (h : parse R mainTable ws = .ok d) :
    ∃ l : List Atom, d.get "agent_profile_distr" = .ok (.list l) ∧ (l = ints [1, 0, 0] ∨ (l.length = 3 ∧ ∀ a ∈ l, NonNegative a)) := by
  obtain ⟨ho, hd⟩ := optOf_mem (table := mainTable) (name := "agent_profile_distr") rfl
  obtain ⟨v, h2, h3⟩ := value_of_option C120_main h ho
  rcases h3 with rfl | ⟨ts, h3, h4⟩
  · exact ⟨_, h2, .inl rfl⟩
  · rcases h4 with ⟨h, -⟩ | ⟨h, -⟩ | ⟨-, -, as, h, rfl⟩
    · cases h
    · rcases h with h | h <;> cases h
    · exact ⟨as, h2, .inr ⟨by rw [← h.length_eq]; exact h3, forall₂_right h (fun _ _ => means_nonNegativeFloat rfl)⟩⟩

/-- C120.  From the command line of main.py only `k` and `a0` can vary over the phases of a simulation: of all arguments only these, `metrics` and `agent_profile_distr` can be lists. -/
theorem C120_lists {ws : List Text} {d : ArgDict PyFloat} (h : parse R mainTable ws = .ok d) {p : String} {l : List Atom} (hl : d.get p = .ok (.list l)) :
    p = "k" ∨ p = "a0" ∨ p = "metrics" ∨ p = "agent_profile_distr" := by
  obtain ⟨gs, -, hs, rfl⟩ := (C120_iff C120_main).1 h
  have hp : p ∈ mainTable.map Entry.dest := by
    by_contra hn
    unfold ArgDict.get at hl
    rw [List.find?_eq_none.2] at hl
    · cases hl
    · intro x hx
      obtain ⟨e, he, rfl⟩ := List.mem_map.1 hx
      simp only [beq_iff_eq]
      rintro rfl
      exact hn (List.mem_map_of_mem he)
  obtain ⟨e, he, rfl⟩ := List.mem_map.1 hp
  rw [get_namespace C120_main (finalValue gs) he, Except.ok.injEq] at hl
  by_contra hno
  have hone : ∀ e ∈ mainTable, (match e with
      | .opt o => o.nargs = .optional ∧ (match o.default with | .list _ => False | _ => True)
      | .switch _ _ => True) ∨ (e.dest = "k" ∨ e.dest = "a0" ∨ e.dest = "metrics" ∨ e.dest = "agent_profile_distr") := by
    simp [mainTable, Entry.dest]
  rcases hone e he with h1 | h1
  · cases e with
    | switch d b =>
      obtain ⟨c, hc⟩ := finalValue_switch C120_main hs he
      rw [hc] at hl; cases hl
    | opt o =>
      simp only at h1
      obtain ⟨h1, h2⟩ := h1
      rcases finalValue_opt C120_main hs he with h3 | ⟨ts, h3, h4⟩
      · rw [← h3, hl] at h2; exact h2
      · rw [hl] at h4
        rcases h4 with ⟨-, -, h4⟩ | ⟨-, t, a, -, -, h4⟩ | ⟨h4, -⟩
        · cases h4
        · cases h4
        · exact h4 h1
  · exact hno h1

/-! ### Options without values, and values after `=` -/

theorem one_setting (T : Table table) {w : List Text} {dest : String} {v : Value} (h : Sets R (optionStrings table) w dest v) :
    parse R table w = .ok (table.map (fun e => (e.dest, if e.dest = dest then v else e.initial))) := by
  refine (C120_iff T).2 ⟨[(w, dest, v)], by simp, by simpa using h, ?_⟩
  refine List.map_congr_left (fun e _ => ?_)
  simp only [finalValue, List.filter_cons, List.filter_nil]
  by_cases hd : e.dest = dest
  · simp [hd]
  · simp [hd, Ne.symm hd]

/-- C120.  An option that takes at most one value is accepted without one; its value is `None` then, not the default. -/
theorem C120_bare (T : Table table) {o : Opt} (ho : .opt o ∈ table) (hn : o.nargs = .optional) :
    parse R table [long o.dest] = .ok (table.map (fun e => (e.dest, if e.dest = o.dest then .one .none else e.initial))) :=
  one_setting T (.values (ts := []) (.inl (name_mem ho)) (by simp) (by rw [hn]; simp [Nargs.Allows]) (.inl ⟨hn, rfl, rfl⟩))

/-- C120.  `--name` and `--no-name` turn a switch on and off. -/
theorem C120_switch (T : Table table) {name : String} {b : Bool} (hs : .switch name b ∈ table) :
    parse R table [long name] = .ok (table.map (fun e => (e.dest, if e.dest = name then .one (.bool true) else e.initial))) ∧
    parse R table [longNo name] = .ok (table.map (fun e => (e.dest, if e.dest = name then .one (.bool false) else e.initial))) :=
  ⟨one_setting T (.switch (.inl (switch_name_mem hs).1)), one_setting T (.switch (.inl (switch_name_mem hs).2))⟩

/-- C120.  After `=` there is room for one value: a further value is rejected, wherever this happens.  (So `--k 100 200` is two values of k, and `--k=100 200` is an error.) -/
theorem C120_one_after_equals (T : Table table) {o : Opt} (ho : .opt o ∈ table) (pre post : List Text) (t : Text) {u : Text} (hu : Plain (optionStrings table) u)
    (d : ArgDict PyFloat) : parse R table (pre ++ (long o.dest ++ '=' :: t) :: u :: post) ≠ .ok d := by
  by_cases hpre : ['-', '-'] ∈ pre
  · exact parse_unknown (unknown_dashes (List.mem_append_left _ hpre)) d
  · have hn : Names (optionStrings table) (long o.dest) (.set o) := .inl (name_mem ho)
    have hc := classify_equals (t := t) T.good hn (by simp)
    have hw : long o.dest ++ '=' :: t ≠ ['-', '-'] := by
      obtain ⟨⟨c, cs, hs⟩, -⟩ := hn.shape T.good (by simp)
      rw [hs]; simp
    intro hp
    unfold parse at hp
    simp only at hp
    split at hp
    · cases hp
    · split at hp
      · cases hp
      · rename_i ns left hcons
        split at hp
        · cases left with
          | true => simp at hp
          | false =>
            refine consumeAll_false (g := (some (.set o, some t), u :: (grouped (classifyAll (optionStrings table) post)).1)) ?_ ?_ hcons
            · rw [classifyAll_append hpre]
              simp only [classifyAll, if_neg hw, hc, if_neg hu.ne, classify_plain T.good hu]
              exact grouped_option (m := .value u :: classifyAll (optionStrings table) post)
            · intro ns ns' h
              rcases consume_option rfl h with ⟨_, _, _, h, -⟩ | ⟨_, _, _, _, _, h, -⟩ | ⟨_, _, h, -⟩
              · cases h
              · cases h
              · cases h
        · cases hp

/-- C120.  An option that does not exist is rejected, wherever it stands and whatever else there is. -/
theorem C120_unknown (T : Table table) {w : Text} (hw : ['-', '-'] <+: w) (hno : ∀ n ∈ optionStrings table, ¬ w.takeWhile (· ≠ '=') <+: n.1) (hsp : ' ' ∉ w) {ws : List Text}
    (h : w ∈ ws) (d : ArgDict PyFloat) : parse R table ws ≠ .ok d := by
  intro hp
  obtain ⟨gs, rfl, hs, -⟩ := (C120_iff T).1 hp
  obtain ⟨l, hl, hwl⟩ := List.mem_flatten.1 h
  obtain ⟨s, hsg, rfl⟩ := List.mem_map.1 hl
  have hset := hs s hsg
  have key : ∀ {u : Text} {a : Act}, Names (optionStrings table) u a → '=' ∉ u ∧ ∃ n ∈ optionStrings table, u <+: n.1 := by
    rintro u a (hm | ⟨-, -, h1, name, h2, h3, -⟩)
    · exact ⟨T.good.noEq _ hm, _, hm, List.prefix_rfl⟩
    · exact ⟨h1, _, h2, h3⟩
  have hname : ∀ {u : Text} {a : Act} (t : Text), Names (optionStrings table) u a → w ≠ u ∧ w ≠ u ++ '=' :: t := by
    intro u a t hn
    obtain ⟨h1, n, h2, h3⟩ := key hn
    have h4 : u.takeWhile (· ≠ '=') = u := by
      have := List.takeWhile_append_of_pos (p := (· ≠ '=')) (l₁ := u) (l₂ := []) (by intro c hc; simp; rintro rfl; exact h1 hc)
      simpa using this
    refine ⟨?_, ?_⟩
    · rintro rfl
      exact hno n h2 (by rw [h4]; exact h3)
    · rintro rfl
      refine hno n h2 ?_
      rw [List.takeWhile_append_of_pos (by intro c hc; simp; rintro rfl; exact h1 hc)]
      simpa using h3
  have hplain : ∀ {u : Text}, Plain (optionStrings table) u → w ≠ u := by
    rintro u hu rfl
    obtain ⟨cs, rfl⟩ := hw
    rcases hu with h1 | h1 | ⟨h1, -⟩
    · simp at h1
    · simp at h1
    · rcases h1 with (⟨ds, h1, h2, h3⟩ | ⟨ds, es, h1, h2, h3, h4⟩) | h1
      · have h5 := (List.cons.inj h1).2
        have := h3 '-' (by rw [← h5]; simp)
        revert this; decide
      · have h5 := (List.cons.inj h1).2
        cases ds with
        | nil => simp at h5
        | cons c ds =>
          have h6 := (List.cons.inj h5).1
          have := h3 c (by simp)
          rw [← h6] at this
          revert this; decide
      · exact hsp h1
  obtain ⟨l, dest, v⟩ := s
  simp only at hset hwl
  cases hset with
  | values hn hp _ _ =>
    rcases List.mem_cons.1 hwl with h | h
    · exact (hname [] hn).1 h
    · exact hplain (hp _ h) rfl
  | equals hn _ _ => exact (hname _ hn).2 (List.mem_singleton.1 hwl)
  | switch hn => exact (hname [] hn).1 (List.mem_singleton.1 hwl)

/-! ### main.py -/

theorem passedOn_get {d : ArgDict PyFloat} {p : String} {v : Value} (h : d.get p = .ok v) (h1 : p ≠ "seq_id") (h2 : p ≠ "parent_dir") : passedOn d p = v := by
  simp [passedOn, h, h1, h2]

/-- C120.  What main.py does with an accepted command line: with `--input_from_file` all other options are irrelevant; otherwise the simulation gets exactly the values of the options, and no sequence id
and no parent directory. -/
theorem C120_main_start {ws : List Text} {d : ArgDict PyFloat} (h : parse R mainTable ws = .ok d) (str : Value → Text) (cwd : Text) (D : Disk PyFloat) (entropy : Int) :
    (d.get "input_from_file" = .ok (.one (.bool true)) ∧ mainStart R str cwd D ws entropy = .ok (start str cwd D .file entropy)) ∨
    (d.get "input_from_file" = .ok (.one (.bool false)) ∧ ∃ given, mainStart R str cwd D ws entropy = .ok (start str cwd D (.call given) entropy) ∧
      given "seq_id" = .one (.int (-1)) ∧ given "parent_dir" = .one (.str []) ∧
      ∀ p ∈ parameters, p ≠ "seq_id" → p ≠ "parent_dir" → d.get p = .ok (given p)) := by
  have hm : mainStart R str cwd D ws entropy = .ok (start str cwd D (mainInput d) entropy) := by
    simp only [mainStart, h, bind, Except.bind, pure, Except.pure]
  rw [hm]
  obtain ⟨gs, -, hs, rfl⟩ := (C120_iff C120_main).1 h
  have hf : Entry.switch "input_from_file" false ∈ mainTable := by simp [mainTable]
  obtain ⟨c, hc⟩ := finalValue_switch C120_main hs hf
  have hg := get_namespace C120_main (finalValue gs) hf
  rw [hc] at hg
  change ArgDict.get _ "input_from_file" = _ at hg
  cases c with
  | true => exact .inl ⟨hg, by rw [mainInput, if_pos hg]⟩
  | false =>
    refine .inr ⟨hg, _, by rw [mainInput, if_neg (by rw [hg]; simp)], by simp [passedOn], by simp [passedOn], ?_⟩
    intro p hp h1 h2
    have hall : ∀ p ∈ parameters, p = "seq_id" ∨ p = "parent_dir" ∨ ∃ e ∈ mainTable, e.dest = p := by decide +kernel
    obtain ⟨e, he, rfl⟩ := ((hall p hp).resolve_left h1).resolve_left h2
    have := get_namespace C120_main (finalValue gs) he
    rw [passedOn_get this h1 h2]
    exact this

/-- C120.  `--execution_id` without a value: the execution does not start (`TypeError`), after it has used up a sequence id. -/
theorem C120_no_execution_id {ws : List Text} {d : ArgDict PyFloat} (h : parse R mainTable ws = .ok d) (hf : d.get "input_from_file" = .ok (.one (.bool false)))
    (he : d.get "execution_id" = .ok (.one .none)) (str : Value → Text) (cwd : Text) (D : Disk PyFloat) {n : Nat} (hn : readSeqId D.seq = .ok n) (entropy : Int) :
    mainStart R str cwd D ws entropy = .ok ({ D with seq := some (strNat (n + 1)) }, .error .type) := by
  rcases C120_main_start h str cwd D entropy with ⟨h1, -⟩ | ⟨-, given, h1, h2, h3, h4⟩
  · rw [hf] at h1; cases h1
  · have h5 : given "execution_id" = .one .none := by
      have := h4 "execution_id" (by decide) (by decide) (by decide)
      rw [he, Except.ok.injEq] at this
      exact this.symm
    rw [h1, Except.ok.injEq, start_listed str cwd D (.call given) entropy (effective given) (.inl ⟨given, rfl, rfl⟩), effective_ne given (by decide) (by decide), h2]
    simp only [takeSeqId, hn, executionName]
    rw [listed_get _ (by decide), effective_ne given (by decide) (by decide), h5]
    rfl

example : parse R mainTable [long "execution_id"] = .ok (mainTable.map (fun e => (e.dest, if e.dest = "execution_id" then .one .none else e.initial))) :=
  C120_bare (o := { dest := "execution_id", nargs := .optional, kind := .str, default := .one (.str []) }) C120_main (by simp [mainTable]) rfl

/-! ### Documented defaults -/

/-- the defaults in docs/configuration.md, but for that of `metrics` -/
def documented : List (String × Value) :=
  [("n", .one (.int 1000)), ("k", .one (.int 100)), ("a0", .one (dec 3 1)), ("agent_profile_distr", .list (ints [1, 0, 0])), ("cost_min", .one (dec 1 5)), ("cost_max", .one (dec 1 4)),
   ("extra_pool_cost_fraction", .one (dec 4 1)), ("agent_activation_order", .one (.str "random".toList)), ("absolute_utility_threshold", .one (dec 1 9)),
   ("relative_utility_threshold", .one (.int 0)), ("stake_distr_source", .one (.str "pareto".toList)), ("pareto_param", .one (dec 2 0)), ("inactive_stake_fraction", .one (.int 0)),
   ("inactive_stake_fraction_known", .one (.bool false)), ("iterations_after_convergence", .one (.int 10)), ("max_iterations", .one (.int 2000)),
   ("generate_graphs", .one (.bool true)), ("seed", .one .none), ("execution_id", .one (.str [])), ("input_from_file", .one (.bool false))]

/-- the documented default of `metrics` -/
def documentedMetrics : Value := .list (ints [1, 2, 3, 4, 6, 17, 18, 24, 25])

theorem parse_nothing (T : Table table) : parse R table [] = .ok (table.map (fun e => (e.dest, e.initial))) := by
  refine (C120_iff T).2 ⟨[], rfl, by simp, ?_⟩
  simp [finalValue]

/-- C120.  Without options main.py runs with the documented defaults, except for the metrics: an execution that starts does so with the metrics 1, 2, 6, 9, 17, 18 and 25 instead of the
documented 1, 2, 3, 4, 6, 17, 18, 24 and 25. -/
theorem C120_main_defaults : ∃ d, parse R mainTable [] = .ok d ∧ (∀ e ∈ documented, d.get e.1 = .ok e.2) ∧
    ∀ (str : Value → Text) (cwd : Text) (D D' : Disk PyFloat) (entropy : Int) (r : Started PyFloat), mainStart R str cwd D [] entropy = .ok (D', .ok r) →
      r.args.get "metrics" = .ok (.list (ints [1, 2, 6, 9, 17, 18, 25])) ∧ r.args.get "metrics" ≠ .ok documentedMetrics := by
  have hp := parse_nothing (R := R) C120_main
  refine ⟨_, hp, by decide +kernel, ?_⟩
  intro str cwd D D' entropy r hr
  have key : r.args.get "metrics" = .ok (.list (ints [1, 2, 6, 9, 17, 18, 25])) := by
    rcases C120_main_start hp str cwd D entropy with ⟨h1, -⟩ | ⟨-, given, h1, -, -, h4⟩
    · have : ArgDict.get (mainTable.map (fun e => (e.dest, e.initial))) "input_from_file" = .ok (.one (.bool false)) := by decide +kernel
      rw [this] at h1; cases h1
    · rw [h1, Except.ok.injEq] at hr
      obtain ⟨-, -, -, ha⟩ := C99_recorded hr
      rw [ha, get_map _ (by decide)]
      have h5 := h4 "metrics" (by decide) (by decide) (by decide)
      have : ArgDict.get (mainTable.map (fun e => (e.dest, e.initial))) "metrics" = .ok (.one .none) := by decide +kernel
      rw [this, Except.ok.injEq] at h5
      rw [effective, ← h5]
      rfl
  refine ⟨key, ?_⟩
  rw [key]
  decide

/-! ### batch-run.py -/

/-- C120.  Of the documented options batch-run.py lacks five, and rejects command lines with them wherever they stand; `--profile_code` of main.py as well. -/
theorem C120_batch_lacks {w : String} (hw : w ∈ ["agent_activation_order", "metrics", "generate_graphs", "input_from_file", "profile_code"]) {ws : List Text}
    (h : long w ∈ ws ∨ longNo w ∈ ws ∨ ∃ t, ' ' ∉ t ∧ long w ++ '=' :: t ∈ ws) (d : ArgDict PyFloat) : parse R batchTable ws ≠ .ok d := by
  have h1 : ∀ w ∈ ["agent_activation_order", "metrics", "generate_graphs", "input_from_file", "profile_code"],
      ('=' ∉ long w ∧ ' ' ∉ long w ∧ ∀ n ∈ optionStrings batchTable, ¬ long w <+: n.1) ∧
      ((longNo w).takeWhile (· ≠ '=') = longNo w ∧ ' ' ∉ longNo w ∧ ∀ n ∈ optionStrings batchTable, ¬ longNo w <+: n.1) := by decide +kernel
  obtain ⟨⟨h2, h3, h4⟩, h5, h6, h7⟩ := h1 w hw
  have h8 : ∀ t, (long w ++ '=' :: t).takeWhile (· ≠ '=') = long w := by
    intro t
    rw [List.takeWhile_append_of_pos (by intro c hc; simp; rintro rfl; exact h2 hc)]
    simp
  rcases h with h | h | ⟨t, ht, h⟩
  · refine C120_unknown C120_batch (w := long w) ⟨_, rfl⟩ ?_ h3 h d
    have := List.takeWhile_append_of_pos (p := (· ≠ '=')) (l₁ := long w) (l₂ := []) (by intro c hc; simp; rintro rfl; exact h2 hc)
    rw [List.append_nil] at this
    rw [this]
    simpa using h4
  · exact C120_unknown C120_batch (w := longNo w) ⟨'n' :: 'o' :: '-' :: w.toList, rfl⟩ (by rw [h5]; exact h7) h6 h d
  · refine C120_unknown C120_batch (w := long w ++ '=' :: t) ⟨w.toList ++ '=' :: t, rfl⟩ (by rw [h8]; exact h4) ?_ h d
    rw [List.mem_append, List.mem_cons]
    rintro (h | h | h)
    · exact h3 h
    · exact absurd h (by decide)
    · exact ht h

/-- C120.  Without options batch-run.py has the documented defaults, except for three values of k (100, 200, 300 instead of 100) and an absolute utility threshold of 0 (instead of 1e-9).
(Its `Pareto` is main.py's `pareto`: the simulation compares in small letters.) -/
theorem C120_batch_defaults : ∃ d, parse R batchTable [] = .ok d ∧
    d.get "k" = .ok (.list (ints [100, 200, 300])) ∧ d.get "absolute_utility_threshold" = .ok (.one (.int 0)) ∧ d.get "execution_id" = .ok (.one (.str "batch-run".toList)) ∧
    d.get "stake_distr_source" = .ok (.one (.str "Pareto".toList)) ∧
    ∀ e ∈ documented, e.1 ∉ ["k", "absolute_utility_threshold", "execution_id", "stake_distr_source", "agent_activation_order", "metrics", "generate_graphs", "input_from_file"] →
      d.get e.1 = .ok e.2 :=
  ⟨_, parse_nothing C120_batch, by decide +kernel, by decide +kernel, by decide +kernel, by decide +kernel, by decide +kernel⟩

/-- C120.  batch-run.py knows four reward schemes: that of CIP-50 is rejected. -/
theorem C120_batch_schemes {ws : List Text} {d : ArgDict PyFloat} (h : parse R batchTable ws = .ok d) :
    ∃ v, d.get "reward_scheme" = .ok v ∧ Optional v (.one (.int 0)) (· ∈ ints [0, 1, 2, 3]) :=
  optional_arg C120_batch h "reward_scheme" rfl rfl (fun _ _ => means_choice rfl)

/-- the default, or a list of values that fit, possibly empty -/
def AnyNumber (v default : Value) (P : Atom → Prop) : Prop := v = default ∨ ∃ l, v = .list l ∧ ∀ a ∈ l, P a

theorem star_arg (T : Table table) {ws : List Text} {d : ArgDict PyFloat} (h : parse R table ws = .ok d) (name : String) {o : Opt} (ho : optOf table name = some o)
    (hn : o.nargs = .star) {P : Atom → Prop} (hP : ∀ t a, o.Means R t a → P a) : ∃ v, d.get name = .ok v ∧ AnyNumber v o.default P := by
  obtain ⟨h1, rfl⟩ := optOf_mem ho
  obtain ⟨v, h2, h3⟩ := value_of_option T h h1
  refine ⟨v, h2, ?_⟩
  rcases h3 with h3 | ⟨ts, -, h4⟩
  · exact .inl h3
  · rcases h4 with ⟨h, -⟩ | ⟨h, -⟩ | ⟨-, -, as, h, rfl⟩
    · rw [hn] at h; cases h
    · rcases h with h | h <;> rw [hn] at h <;> cases h
    · exact .inr ⟨as, rfl, forall₂_right h hP⟩

theorem means_float {o : Opt} (hk : o.kind = .float) {t : Text} {a : Atom} (h : o.Means R t a) : ∃ x, a = .float x := by
  have := h.1; rw [hk] at this
  obtain ⟨i, -, rfl⟩ := this
  exact ⟨i, rfl⟩

/-- C120.  What batch-run.py can be told: lists of integers for `n` and `k` and lists of floats for the parameters of the grid, without any bounds; both thresholds need
at least one value; `iterations_after_convergence` is always an integer, since it needs exactly one value. -/
theorem C120_batch_values {ws : List Text} {d : ArgDict PyFloat} (h : parse R batchTable ws = .ok d) :
    (∃ v, d.get "n" = .ok v ∧ AnyNumber v (.one (.int 1000)) (fun a => ∃ i, a = .int i)) ∧
    (∃ v, d.get "k" = .ok v ∧ AnyNumber v (.list (ints [100, 200, 300])) (fun a => ∃ i, a = .int i)) ∧
    (∃ v, d.get "a0" = .ok v ∧ AnyNumber v (.one (dec 3 1)) (fun a => ∃ x, a = .float x)) ∧
    (∃ v, d.get "inactive_stake_fraction" = .ok v ∧ AnyNumber v (.one (.int 0)) (fun a => ∃ x, a = .float x)) ∧
    (∃ v, d.get "pareto_param" = .ok v ∧ AnyNumber v (.one (dec 2 0)) (fun a => ∃ x, a = .float x)) ∧
    (∃ v, d.get "cost_min" = .ok v ∧ AnyNumber v (.one (dec 1 5)) (fun a => ∃ x, a = .float x)) ∧
    (∃ v, d.get "cost_max" = .ok v ∧ AnyNumber v (.one (dec 1 4)) (fun a => ∃ x, a = .float x)) ∧
    (∃ v, d.get "extra_pool_cost_fraction" = .ok v ∧ AnyNumber v (.one (dec 4 1)) (fun a => ∃ x, a = .float x)) ∧
    (∃ v, d.get "agent_profile_distr" = .ok v ∧ AnyNumber v (.list (ints [1, 0, 0])) (fun a => ∃ x, a = .float x)) ∧
    (∃ v, d.get "relative_utility_threshold" = .ok v ∧ Several v (.one (.int 0)) (fun a => ∃ x, a = .float x)) ∧
    (∃ v, d.get "absolute_utility_threshold" = .ok v ∧ Several v (.one (.int 0)) (fun a => ∃ x, a = .float x)) ∧
    (∃ v, d.get "seed" = .ok v ∧ Optional v (.one .none) (fun a => ∃ i, a = .int i)) ∧
    (∃ v, d.get "max_iterations" = .ok v ∧ Optional v (.one (.int 2000)) (fun a => ∃ i, a = .int i)) ∧
    (∃ v, d.get "execution_id" = .ok v ∧ Optional v (.one (.str "batch-run".toList)) (fun a => ∃ t, a = .str t)) ∧
    (∃ v, d.get "stake_distr_source" = .ok v ∧ Optional v (.one (.str "Pareto".toList)) (fun a => ∃ t, a = .str t)) ∧
    ∃ i, d.get "iterations_after_convergence" = .ok (.one (.int i)) := by
  refine ⟨star_arg C120_batch h "n" rfl rfl (fun _ _ => means_int rfl), star_arg C120_batch h "k" rfl rfl (fun _ _ => means_int rfl),
    star_arg C120_batch h "a0" rfl rfl (fun _ _ => means_float rfl), star_arg C120_batch h "inactive_stake_fraction" rfl rfl (fun _ _ => means_float rfl),
    star_arg C120_batch h "pareto_param" rfl rfl (fun _ _ => means_float rfl), star_arg C120_batch h "cost_min" rfl rfl (fun _ _ => means_float rfl),
    star_arg C120_batch h "cost_max" rfl rfl (fun _ _ => means_float rfl), star_arg C120_batch h "extra_pool_cost_fraction" rfl rfl (fun _ _ => means_float rfl),
    star_arg C120_batch h "agent_profile_distr" rfl rfl (fun _ _ => means_float rfl),
    several_arg C120_batch h "relative_utility_threshold" rfl (.inl rfl) (fun _ _ => means_float rfl),
    several_arg C120_batch h "absolute_utility_threshold" rfl (.inl rfl) (fun _ _ => means_float rfl),
    optional_arg C120_batch h "seed" rfl rfl (fun _ _ => means_int rfl), optional_arg C120_batch h "max_iterations" rfl rfl (fun _ _ => means_int rfl),
    optional_arg C120_batch h "execution_id" rfl rfl (fun t _ hm => ⟨t, hm.1⟩), optional_arg C120_batch h "stake_distr_source" rfl rfl (fun t _ hm => ⟨t, hm.1⟩), ?_⟩
  obtain ⟨ho, hd⟩ := optOf_mem (table := batchTable) (name := "iterations_after_convergence") rfl
  obtain ⟨v, h2, h3⟩ := value_of_option C120_batch h ho
  rcases h3 with rfl | ⟨ts, -, h4⟩
  · exact ⟨_, h2⟩
  · rcases h4 with ⟨h, -⟩ | ⟨-, t, a, -, hm, rfl⟩ | ⟨-, h, -⟩
    · cases h
    · obtain ⟨i, rfl⟩ := means_int rfl hm
      exact ⟨i, h2⟩
    · exact absurd rfl h

/-- how many values an option has -/
def valueCount : Value → Nat
  | .one _ => 1
  | .list l => l.length
  | .tuple l => l.length

theorem batchParam_values (str : Value → Text) (v : Value) : (batchParam str v).values.length = valueCount v := by
  cases v with
  | one a => cases a <;> rfl
  | list l => simp [batchParam, Param.values, valueCount]
  | tuple l => simp [batchParam, Param.values, valueCount]

/-- the options of batch-run.py that become parameters -/
def batchNames : List String :=
  ["max_iterations", "n", "k", "a0", "inactive_stake_fraction", "inactive_stake_fraction_known", "pareto_param", "cost_min", "cost_max", "extra_pool_cost_fraction", "stake_distr_source",
   "reward_scheme", "relative_utility_threshold", "absolute_utility_threshold", "iterations_after_convergence"]

theorem withParentDir_append (path : Text) : ∀ {l : List (Text × Param)}, parentDirName ∉ l.map Prod.fst → withParentDir path l = l ++ [(parentDirName, .scalar (.other path))]
  | [], _ => rfl
  | (n, p) :: l, h => by
    simp only [List.map_cons, List.mem_cons, not_or] at h
    simp only [withParentDir, if_neg (Ne.symm h.1), List.cons_append, withParentDir_append path h.2]

/-- C120.  The batch run of an accepted command line has one run for every combination of the values: as many as the product of the numbers of values of its 15 parameters.
Without any values for some option (`--k`) there is no run at all. -/
theorem C120_batch_runs {ws : List Text} {d : ArgDict PyFloat} (h : parse R batchTable ws = .ok d) (str : Value → Text) (path : Text) (entropy : Int) :
    ∃ f : String → Value, (∀ p ∈ batchNames, d.get p = .ok (f p)) ∧ ∃ runs, batchStart R str path ws entropy = .ok runs ∧ runs.length = (batchNames.map (fun p => valueCount (f p))).prod := by
  obtain ⟨gs, -, hs, rfl⟩ := (C120_iff C120_batch).1 h
  let f : String → Value := fun p => match ArgDict.get (batchTable.map (fun e => (e.dest, finalValue gs e))) p with
    | .ok v => v
    | .error _ => .one .none
  have hf : ∀ e ∈ batchTable, f e.dest = finalValue gs e := by
    intro e he
    simp only [f, get_namespace C120_batch (finalValue gs) he]
  have hnames : ∀ p ∈ batchNames, ∃ e ∈ batchTable, e.dest = p := by decide +kernel
  refine ⟨f, ?_, ?_⟩
  · intro p hp
    obtain ⟨e, he, rfl⟩ := hnames p hp
    rw [hf e he, get_namespace C120_batch (finalValue gs) he]
  · have hstart : ∃ seed, batchStart R str path ws entropy = .ok (batchKwargs (withParentDir path (batchInput str (batchTable.map (fun e => (e.dest, finalValue gs e))))) 1 seed) := by
      simp only [batchStart, h, bind, Except.bind, pure, Except.pure]
      exact ⟨_, rfl⟩
    obtain ⟨seed, hstart⟩ := hstart
    refine ⟨_, hstart, ?_⟩
    have hin : batchInput str (batchTable.map (fun e => (e.dest, finalValue gs e))) = batchNames.map (fun p => (p.toList, batchParam str (f p))) := by
      have h1 : batchTable.map (fun e => (e.dest, finalValue gs e)) = (batchTable.map Entry.dest).map (fun p => (p, f p)) := by
        rw [List.map_map]
        exact List.map_congr_left (fun e he => by simp only [Function.comp_apply, hf e he])
      have h2 : batchNames = (batchTable.map Entry.dest).filter (fun p => p.toList ≠ executionIdName ∧ p.toList ≠ seedName ∧ p.toList ≠ profileDistrName) := by decide +kernel
      rw [h1, h2]
      unfold batchInput batchParams
      rw [List.map_map, List.filter_map]
      rfl
    have hdir : parentDirName ∉ batchNames.map String.toList := by decide +kernel
    rw [hin, withParentDir_append path (by rw [List.map_map]; exact hdir), (batch_runs_named _ 1 seed).1, Nat.mul_one, (kwargs_grid _ ?_).2.1]
    · simp only [List.map_append, List.map_map, List.map_cons, List.map_nil, List.prod_append]
      have : (Param.values (.scalar (.other path))).length = 1 := rfl
      simp only [this, List.prod_cons, List.prod_nil, Nat.mul_one]
      congr 1
      exact List.map_congr_left (fun p _ => batchParam_values str (f p))
    · have h3 : (batchNames.map String.toList ++ [parentDirName]).Nodup := by decide +kernel
      simpa [List.map_map, Function.comp_def] using h3

/-! ### Examples -/

/-- integers and decimal fractions without exponents -/
def plainReader : Reader where
  int t := match t with
    | '-' :: ds => if ds ≠ [] ∧ ds.all isDigit then some (-(digits ds : Int)) else none
    | ds => if ds ≠ [] ∧ ds.all isDigit then some (digits ds) else none
  float t := match t with
    | '-' :: ds => (decimal ds).map (fun x => .fin (B64.of (-x)).1)
    | ds => (decimal ds).map (fun x => .fin (B64.of x).1)
where
  digits (ds : Text) : Nat := ds.foldl (fun n c => 10 * n + (c.toNat - '0'.toNat)) 0
  decimal (ds : Text) : Option ℚ :=
    let whole := ds.takeWhile isDigit
    match ds.dropWhile isDigit with
    | [] => if whole ≠ [] then some (digits whole) else none
    | '.' :: es => if (whole ≠ [] ∨ es ≠ []) ∧ es.all isDigit then some (digits whole + (digits es : ℚ) / 10 ^ es.length) else none
    | _ => none

def givenOptions (table : List Entry) (ws : List String) (names : List String) : Except Exit (List (Except StartErr Value)) :=
  (parse plainReader table (ws.map String.toList)).map (fun d => names.map d.get)

/-- README.md:68 -/
example : givenOptions mainTable ["--n=2000", "--execution_id=2000-agents"] ["n", "k", "execution_id"] =
    .ok [.ok (.one (.int 2000)), .ok (.one (.int 100)), .ok (.one (.str "2000-agents".toList))] := by decide +kernel

/-- docs/examples.md:16 -/
example : givenOptions mainTable ["--k", "100", "200", "--execution_id=increasing-k"] ["k", "a0"] = .ok [.ok (.list (ints [100, 200])), .ok (.one (dec 3 1))] := by decide +kernel

/-- docs/examples.md:24 -/
example : givenOptions mainTable ["--agent_profile_distr", "1", "1", "0"] ["agent_profile_distr"] = .ok [.ok (.list [dec 1 0, dec 1 0, dec 0 0])] := by decide +kernel

/-- docs/examples.md:37 -/
example : givenOptions batchTable ["--n=1000", "--k=100", "--a0", "0.01", "0.1", "1", "--execution_id=batch-run-varying-a0"] ["n", "k", "a0"] =
    .ok [.ok (.list (ints [1000])), .ok (.list (ints [100])), .ok (.list [dec 1 2, dec 1 1, dec 1 0])] := by decide +kernel

/-- options can be abbreviated, the last setting counts, and letters of choices can be large -/
example : givenOptions mainTable ["--iter", "5", "--max=7", "--iter=6", "--agent_a", "Sequential", "--no-g"] ["iterations_after_convergence", "max_iterations", "agent_activation_order", "generate_graphs"] =
    .ok [.ok (.one (.int 6)), .ok (.one (.int 7)), .ok (.one (.str "sequential".toList)), .ok (.one (.bool false))] := by decide +kernel

/-- ambiguous, out of range, not a choice, too many, too few, no such option, a value without an option, a switch with a value -/
example : ∀ ws ∈ [["--cost", "3"], ["--n", "0"], ["--n", "-5"], ["--reward_scheme", "5"], ["--n", "1", "2"], ["--k"], ["--agent_profile_distr", "1", "0"], ["--nn", "3"], ["5"],
    ["--generate_graphs=yes"], ["--k=100", "200"], ["--", "--n", "3"]], givenOptions mainTable ws [] = .error .error := by decide +kernel

/-- `--n` alone is `None`; batch-run.py checks no ranges; `--iterations_after_convergence -1` is accepted by both -/
example : givenOptions mainTable ["--n"] ["n"] = .ok [.ok (.one .none)] ∧ givenOptions batchTable ["--n", "0", "-5", "--k"] ["n", "k"] = .ok [.ok (.list (ints [0, -5])), .ok (.list [])] ∧
    givenOptions mainTable ["--iterations_after_convergence", "-1"] ["iterations_after_convergence"] = .ok [.ok (.one (.int (-1)))] ∧
    givenOptions mainTable ["--help", "--n", "0"] [] = .error .help ∧ givenOptions mainTable ["--n", "0", "--help"] [] = .error .error := by decide +kernel

/-- no runs without values of k, and six for two values of n and the default three of k -/
example : ((batchStart plainReader (fun _ => []) [] [long "k"] 0).map List.length) = .ok 0 ∧
    ((batchStart plainReader (fun _ => []) [] [long "n", ['5'], ['6']] 0).map List.length) = .ok 6 := by decide +kernel

end RSE.Props
