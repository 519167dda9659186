import Verif.Props.Files
import Verif.Model.ArgsFile
import Mathlib.Data.Rat.Defs

/-!
# C99: the file args.json of an execution

An execution writes its arguments to args.json in its output directory; `--input_from_file` reads them from a file of that name in the working directory.
Proved: the file lists all 23 parameters with the values in effect; an execution can be repeated from its file if a seed was given; it cannot if the seed
was drawn, because the file does not have it; the files of the executions of a batch run cannot be used while their output is still there; a file must
list all parameters.
-/

set_option linter.unusedSectionVars false

namespace RSE.Props

variable {F : Type}

/-! ### Specification -/

/-- the arguments in effect: the given ones, with two defaults -/
def effective (given : String → ArgValue F) (p : String) : ArgValue F :=
  match given p with
  | .one .none =>
    if p = "metrics" then .list ([1, 2, 6, 9, 17, 18, 25].map .int)
    else if p = "agent_profile_distr" then .list ([1, 0, 0].map .int)
    else .one .none
  | v => v

/-- numbers, texts, truth values, `None`, and lists of these: what JSON can express -/
def Expressible : ArgValue F → Prop
  | .one s => ∀ t, s ≠ .other t
  | .list l => ∀ s ∈ l, ∀ t, s ≠ .other t
  | .tuple _ => False

/-! ### Dictionaries that list the parameters -/

/-- the dictionary with the parameters in order and the values `g` -/
def listed (g : String → ArgValue F) : ArgDict F := parameters.map (fun p => (p, g p))

theorem get_map (g : String → ArgValue F) {p : String} : ∀ {l : List String}, p ∈ l → ArgDict.get (l.map (fun p => (p, g p))) p = .ok (g p)
  | [], h => by cases h
  | q :: l, h => by
    unfold ArgDict.get
    rw [List.map_cons, List.find?_cons]
    by_cases hq : q = p
    · subst hq; simp
    · have : (q == p) = false := by simpa using hq
      simp only [this]
      exact get_map g ((List.mem_cons.1 h).resolve_left (Ne.symm hq))

theorem listed_get (g : String → ArgValue F) {p : String} (h : p ∈ parameters) : (listed g).get p = .ok (g p) := get_map g h

theorem listed_put (g : String → ArgValue F) (p : String) (v : ArgValue F) : (listed g).put p v = listed (fun q => if q = p then v else g q) := by
  unfold ArgDict.put listed
  rw [List.map_map]
  refine List.map_congr_left (fun q _ => ?_)
  by_cases h : q = p
  · simp [h]
  · simp [h]

theorem listed_json (g : String → ArgValue F) : (listed g).json = listed (fun p => (g p).json) := by
  unfold ArgDict.json listed
  rw [List.map_map]
  rfl

theorem fillDefault_listed (g : String → ArgValue F) {name : String} (h : name ∈ parameters) (v : ArgValue F) :
    fillDefault (listed g) name v = .ok (listed (fun q => if q = name then (match g q with
      | .one .none => v
      | x => x) else g q)) := by
  unfold fillDefault
  rw [listed_get g h]
  simp only [bind, Except.bind]
  have same : ∀ x, g name = x → (∀ (h : x = .one .none), False) → listed g = listed (fun q => if q = name then (match g q with
      | .one .none => v
      | x => x) else g q) := by
    intro x hx hne
    congr 1
    funext q
    by_cases hq : q = name
    · subst hq
      rw [if_pos rfl, hx]
      split
      · exact (hne rfl).elim
      · rfl
    · rw [if_neg hq]
  cases hg : g name with
  | list l => exact congrArg _ (same _ hg (fun h => by cases h))
  | tuple l => exact congrArg _ (same _ hg (fun h => by cases h))
  | one s =>
    cases s with
    | none =>
      simp only [listed_put]
      congr 2
      funext q
      by_cases hq : q = name
      · subst hq; rw [if_pos rfl, if_pos rfl, hg]
      · rw [if_neg hq, if_neg hq]
    | bool _ => exact congrArg _ (same _ hg (fun h => by cases h))
    | int _ => exact congrArg _ (same _ hg (fun h => by cases h))
    | float _ => exact congrArg _ (same _ hg (fun h => by cases h))
    | str _ => exact congrArg _ (same _ hg (fun h => by cases h))
    | other _ => exact congrArg _ (same _ hg (fun h => by cases h))

theorem fillDefaults_listed (g : String → ArgValue F) : fillDefaults (listed g) = .ok (listed (effective g)) := by
  unfold fillDefaults
  rw [fillDefault_listed g (by decide)]
  simp only [bind, Except.bind]
  rw [fillDefault_listed _ (by decide)]
  congr 2
  funext q
  unfold effective
  by_cases h1 : q = "agent_profile_distr"
  · have h2 : q ≠ "metrics" := by rw [h1]; decide
    simp only [if_pos h1, if_neg h2]
    rfl
  · by_cases h2 : q = "metrics"
    · simp only [if_neg h1, if_pos h2]
      rfl
    · simp only [if_neg h1, if_neg h2]
      split <;> simp_all

theorem effective_ne (g : String → ArgValue F) {p : String} (h : p ≠ "metrics") (h' : p ≠ "agent_profile_distr") : effective g p = g p := by
  unfold effective
  rw [if_neg h, if_neg h']
  split <;> simp_all

theorem effective_json (g : String → ArgValue F) : effective (fun p => (effective g p).json) = fun p => (effective g p).json := by
  funext p
  have key : ∀ v : ArgValue F, v.json = .one .none → v = .one .none := by
    intro v hv
    cases v with
    | one s => cases s <;> first | rfl | (simp [ArgValue.json, Scalar.json] at hv)
    | list l => simp [ArgValue.json] at hv
    | tuple l => simp [ArgValue.json] at hv
  by_cases h1 : p = "metrics" ∨ p = "agent_profile_distr"
  · have hne : effective g p ≠ .one .none := by
      unfold effective
      split
      · rcases h1 with rfl | rfl
        · simp
        · rw [if_neg (by decide)]; simp
      · rename_i h; exact fun hx => h (by rw [hx])
    unfold effective
    split
    · rename_i h
      exact absurd (key _ h) hne
    · rfl
  · rw [not_or] at h1
    exact effective_ne _ h1.1 h1.2

theorem json_plain {v : ArgValue F} (h : Expressible v) : v.json = v := by
  have key : ∀ s : Scalar F, (∀ t, s ≠ .other t) → s.json = s := by
    intro s hs
    cases s <;> first | rfl | exact absurd rfl (hs _)
  cases v with
  | one s => exact congrArg _ (key s h)
  | list l => exact congrArg _ ((List.map_congr_left (fun s hs => key s (h s hs))).trans (List.map_id l))
  | tuple l => exact h.elim

theorem effective_plain {g : String → ArgValue F} {p : String} (h : Expressible (g p)) : Expressible (effective g p) := by
  unfold effective
  split
  · split
    · intro s hs t
      obtain ⟨i, -, rfl⟩ := List.mem_map.1 hs
      simp
    · split
      · intro s hs t
        obtain ⟨i, -, rfl⟩ := List.mem_map.1 hs
        simp
      · intro t; simp
  · exact h

theorem readAll_listed (g : String → ArgValue F) : ∀ {l : List String}, (∀ p ∈ l, p ∈ parameters) → readAll (listed g) l = .ok ()
  | [], _ => rfl
  | p :: l, h => by
    unfold readAll
    rw [listed_get g (h p List.mem_cons_self)]
    exact readAll_listed g (fun q hq => h q (List.mem_cons_of_mem _ hq))

/-! ### Starting with a dictionary that lists the parameters -/

/-- what `start` does with the arguments `g` -/
theorem start_listed (str : ArgValue F → Text) (cwd : Text) (d : Disk F) (input : Input F) (entropy : Int) (g : String → ArgValue F)
    (h : (∃ given, input = .call given ∧ g = effective given) ∨ (input = .file ∧ d.here = some (listed g) ∧ effective g = g)) :
    start str cwd d input entropy =
      match takeSeqId str d.seq (g "seq_id") with
      | .error e => (d, .error e)
      | .ok (seqText, seq) =>
        match (executionName str seqText (listed g)).bind (outputPath cwd (listed g)) with
        | .error e => ({ d with seq := seq }, .error e)
        | .ok dir =>
          match mkdir d.dirs dir with
          | none => ({ d with seq := seq }, .error .exists)
          | some dirs =>
            ({ d with seq := seq, dirs := dirs, written := (dir, (listed g).json) :: d.written }, .ok { args := listed g, seed := seedOf entropy (g "seed"), dir := dir }) := by
  have hl : (loadArgs d input).bind fillDefaults = .ok (listed g) := by
    rcases h with ⟨given, rfl, rfl⟩ | ⟨rfl, hh, he⟩
    · exact fillDefaults_listed given
    · unfold loadArgs
      rw [hh]
      change fillDefaults (listed g) = _
      rw [fillDefaults_listed, he]
  have hr : readAll (listed g) readLater = .ok () := readAll_listed g (by decide)
  unfold start
  rw [hl]
  simp only [listed_get g (show "seed" ∈ parameters by decide), listed_get g (show "seq_id" ∈ parameters by decide), hr]
  rfl

/-- the directory, apart from the sequence id in its name -/
theorem path_listed (str : ArgValue F → Text) (cwd : Text) (g : String → ArgValue F) :
    ∃ res : Except StartErr (Text × Text), ∀ seqText, (executionName str seqText (listed g)).bind (outputPath cwd (listed g)) =
      res.map (fun pn => joinPath pn.1 (seqText ++ '-' :: pn.2)) := by
  unfold executionName
  rw [listed_get g (show "execution_id" ∈ parameters by decide)]
  have hout : ∀ nm, ∃ res : Except StartErr Text, ∀ seqText : Text, outputPath cwd (listed g) (seqText ++ '-' :: nm) =
      res.map (fun pre => joinPath pre (seqText ++ '-' :: nm)) := by
    intro nm
    unfold outputPath
    rw [listed_get g (show "parent_dir" ∈ parameters by decide)]
    simp only [bind, Except.bind]
    split
    · exact ⟨.ok _, fun _ => rfl⟩
    · exact ⟨.ok _, fun _ => rfl⟩
    · exact ⟨.error .type, fun _ => rfl⟩
  simp only [bind, Except.bind]
  split
  · rename_i t ht
    obtain ⟨res, hres⟩ := hout (if t = [] ∨ t = ['t', 'e', 'm', 'p'] then generatedName str (listed g) else t)
    refine ⟨res.map (fun pre => (pre, if t = [] ∨ t = ['t', 'e', 'm', 'p'] then generatedName str (listed g) else t)), fun seqText => ?_⟩
    refine (hres seqText).trans ?_
    cases res <;> rfl
  · exact ⟨.error .type, fun _ => rfl⟩

/-- a start that succeeded -/
theorem start_ok {str : ArgValue F → Text} {cwd : Text} {d d' : Disk F} {input : Input F} {entropy : Int} {g : String → ArgValue F} {r : Started F}
    (h : (∃ given, input = .call given ∧ g = effective given) ∨ (input = .file ∧ d.here = some (listed g) ∧ effective g = g))
    (hs : start str cwd d input entropy = (d', .ok r)) :
    ∃ seqText seq, takeSeqId str d.seq (g "seq_id") = .ok (seqText, seq) ∧
      (executionName str seqText (listed g)).bind (outputPath cwd (listed g)) = .ok r.dir ∧ r.dir ∉ d.dirs ∧ r.args = listed g ∧
      r.seed = seedOf entropy (g "seed") ∧ d'.written = (r.dir, (listed g).json) :: d.written ∧ d'.dirs = r.dir :: d.dirs := by
  rw [start_listed str cwd d input entropy g h] at hs
  cases ht : takeSeqId str d.seq (g "seq_id") with
  | error e => rw [ht] at hs; cases hs
  | ok v =>
    obtain ⟨seqText, seq⟩ := v
    rw [ht] at hs
    simp only at hs
    cases hp : (executionName str seqText (listed g)).bind (outputPath cwd (listed g)) with
    | error e => rw [hp] at hs; cases hs
    | ok dir =>
      rw [hp] at hs
      simp only at hs
      unfold mkdir at hs
      by_cases hm : dir ∈ d.dirs
      · rw [if_pos hm] at hs; cases hs
      · rw [if_neg hm] at hs
        cases hs
        exact ⟨seqText, seq, rfl, hp, hm, rfl, rfl, rfl, rfl⟩

/-! ### The claims -/

/-- C99.  An execution whose arguments come from the call writes a new file args.json, in a new directory.  It lists the 23 parameters in order, with the
given values and the defaults of `metrics` and `agent_profile_distr` filled in, as far as JSON can express them. -/
theorem C99_recorded {str : ArgValue F → Text} {cwd : Text} {d d' : Disk F} {given : String → ArgValue F} {entropy : Int} {r : Started F}
    (h : start str cwd d (.call given) entropy = (d', .ok r)) :
    r.dir ∉ d.dirs ∧ d'.dirs = r.dir :: d.dirs ∧
    d'.written = (r.dir, parameters.map (fun p => (p, (effective given p).json))) :: d.written ∧
    r.args = parameters.map (fun p => (p, effective given p)) := by
  obtain ⟨_, _, -, -, h1, h2, -, h3, h4⟩ := start_ok (Or.inl ⟨given, rfl, rfl⟩) h
  rw [listed_json] at h3
  exact ⟨h1, h4, h3, h2⟩

/-- the directory for executions with the parent directory `parent` -/
def executionsIn (cwd parent : Text) : Text :=
  if parent = [] then cwd ++ "/output".toList
  else if parent.head? = some '/' then parent
  else cwd ++ "/output/".toList ++ parent

theorem joinDash_intercalate : ∀ ts : List Text, joinDash ts = ['-'].intercalate ts
  | [] => rfl
  | [t] => by simp [joinDash, List.intercalate]
  | t :: u :: ts => by
    rw [joinDash, joinDash_intercalate (u :: ts)]
    simp [List.intercalate, List.intersperse]

/-- how a value is shown in a generated name: the items of a list are joined by hyphens -/
def shownIn (str : ArgValue F → Text) : ArgValue F → Text
  | .list l => ['-'].intercalate (l.map (fun s => str (.one s)))
  | v => str v

/-- the generated name: the first five parameters with their values, cut off after 100 characters -/
def nameOf (str : ArgValue F → Text) (value : String → ArgValue F) : Text :=
  (['-'].intercalate ["n".toList, shownIn str (value "n"), "k".toList, shownIn str (value "k"), "a0".toList, shownIn str (value "a0"),
    "stake_distr_source".toList, shownIn str (value "stake_distr_source"), "agent_profile_distr".toList, shownIn str (value "agent_profile_distr")]).take 100

theorem generatedName_eq (str : ArgValue F → Text) (g : String → ArgValue F) : generatedName str (listed g) = nameOf str g := by
  have h : generatedName str (listed g) = (joinDash (((listed g).take 5).map (fun e => e.1.toList ++ '-' :: shownIn str e.2))).take 100 := by
    unfold generatedName generateExecutionId
    rw [← List.map_take, List.map_map]
    congr 2
    refine List.map_congr_left (fun e _ => ?_)
    obtain ⟨name, v⟩ := e
    cases v <;> simp [shownIn, joinDash_intercalate]
  rw [h, nameOf, joinDash_intercalate]
  simp only [listed, parameters, List.map_cons, List.take_succ_cons, List.take_zero, List.map_nil]
  simp [List.intercalate, List.intersperse]

/-- C99.  Where the output goes, without a sequence id of its own: to `output/<parent_dir>` in the working directory, or to `parent_dir` if this is an absolute
path; the name of the new directory is the next sequence id, a hyphen, and the given execution id, or if there is none (or `temp`) a name made of the first five parameters. -/
theorem C99_place {str : ArgValue F → Text} {cwd : Text} {d d' : Disk F} {given : String → ArgValue F} {entropy : Int} {r : Started F}
    (h : start str cwd d (.call given) entropy = (d', .ok r)) (hs : given "seq_id" = .one (.int (-1))) {n : Nat} (hn : readSeqId d.seq = .ok n)
    {parent : Text} (hp : given "parent_dir" = .one (.str parent)) {e : Text} (he : given "execution_id" = .one (.str e)) :
    (e ≠ [] → e ≠ "temp".toList → r.dir = executionsIn cwd parent ++ '/' :: strNat (n + 1) ++ '-' :: e) ∧
    (e = [] ∨ e = "temp".toList → r.dir = executionsIn cwd parent ++ '/' :: strNat (n + 1) ++ '-' :: nameOf str (effective given)) := by
  obtain ⟨seqText, seq, ht, hd, -⟩ := start_ok (Or.inl ⟨given, rfl, rfl⟩) h
  rw [effective_ne _ (by decide) (by decide), hs] at ht
  unfold takeSeqId at ht
  simp only [hn] at ht
  obtain ⟨rfl, -⟩ := Prod.mk.inj (Except.ok.inj ht)
  unfold executionName at hd
  rw [listed_get _ (show "execution_id" ∈ parameters by decide), effective_ne _ (by decide) (by decide), he] at hd
  simp only [bind, Except.bind, generatedName_eq] at hd
  unfold outputPath at hd
  rw [listed_get _ (show "parent_dir" ∈ parameters by decide), effective_ne _ (by decide) (by decide), hp] at hd
  simp only [bind, Except.bind] at hd
  rw [← Except.ok.inj hd]
  have hj : ∀ base e, joinPath base (strNat (n + 1) ++ '-' :: e) = base ++ '/' :: strNat (n + 1) ++ '-' :: e := by
    intro base e
    have hdig := strNat_digits (n + 1)
    revert hdig
    cases hst : strNat (n + 1) with
    | nil => exact absurd hst (strNat_ne_nil _)
    | cons c cs =>
      intro hdig
      have hc : c ≠ '/' := by
        rintro rfl
        exact absurd (hdig '/' List.mem_cons_self) (by decide)
      simp [joinPath, hc]
  rw [hj]
  have hb : joinPath (joinPath cwd ['o', 'u', 't', 'p', 'u', 't']) parent = executionsIn cwd parent := by
    cases parent with
    | nil => simp [joinPath, executionsIn]
    | cons c cs =>
      by_cases hc : c = '/'
      · simp [joinPath, executionsIn, hc]
      · simp [joinPath, executionsIn, hc]
  rw [hb]
  have htemp : "temp".toList = ['t', 'e', 'm', 'p'] := rfl
  rw [htemp]
  exact ⟨fun h1 h2 => by rw [if_neg (by simp [h1, h2])], fun h1 => by rw [if_pos h1]⟩

/-- the file args.json in the working directory `D` is the one that an execution with the arguments `given` wrote -/
def CopiedFrom (D : Disk F) (given : String → ArgValue F) : Prop := D.here = some (parameters.map (fun p => (p, (effective given p).json)))

theorem copied_listed {D : Disk F} {given : String → ArgValue F} (h : CopiedFrom D given) :
    D.here = some (listed (fun p => (effective given p).json)) ∧ effective (fun p => (effective given p).json) = fun p => (effective given p).json :=
  ⟨h, effective_json given⟩

theorem rerun {str : ArgValue F → Text} {cwd : Text} {d d' D : Disk F} {given : String → ArgValue F} {entropy : Int} {r : Started F}
    (h : start str cwd d (.call given) entropy = (d', .ok r)) (hp : ∀ p, Expressible (given p)) (hs : given "seq_id" = .one (.int (-1)))
    (hD : CopiedFrom D given) {m : Nat} (hm : readSeqId D.seq = .ok m)
    (hfree : ∀ pre name n, r.dir = joinPath pre (strNat n ++ '-' :: name) → joinPath pre (strNat (m + 1) ++ '-' :: name) ∉ D.dirs) (entropy' : Int) :
    ∃ D' r', start str cwd D .file entropy' = (D', .ok r') ∧ r'.args = r.args ∧ r'.seed = seedOf entropy' (given "seed") ∧
      ∃ pre name n, r.dir = joinPath pre (strNat n ++ '-' :: name) ∧ r'.dir = joinPath pre (strNat (m + 1) ++ '-' :: name) := by
  obtain ⟨hD1, hD2⟩ := copied_listed hD
  have hg : (fun p => (effective given p).json) = effective given := funext (fun p => json_plain (effective_plain (hp p)))
  rw [hg] at hD1 hD2
  obtain ⟨seqText, seq, h1, h2, h3, h4, h5, -, -⟩ := start_ok (Or.inl ⟨given, rfl, rfl⟩) h
  have hsq : effective given "seq_id" = .one (.int (-1)) := by rw [effective_ne _ (by decide) (by decide), hs]
  have hsd : effective given "seed" = given "seed" := effective_ne _ (by decide) (by decide)
  obtain ⟨res, hres⟩ := path_listed str cwd (effective given)
  rw [hres] at h2
  cases res with
  | error e => cases h2
  | ok pn =>
    obtain ⟨pre, name⟩ := pn
    have hdir : joinPath pre (seqText ++ '-' :: name) = r.dir := Except.ok.inj h2
    have hn : ∃ n, seqText = strNat n := by
      rw [hsq] at h1
      unfold takeSeqId at h1
      simp only at h1
      cases hr : readSeqId d.seq with
      | error e => rw [hr] at h1; cases h1
      | ok n => rw [hr] at h1; cases h1; exact ⟨n + 1, rfl⟩
    obtain ⟨n, rfl⟩ := hn
    have hst := start_listed str cwd D .file entropy' (effective given) (Or.inr ⟨rfl, hD1, hD2⟩)
    have ht : takeSeqId str D.seq (effective given "seq_id") = .ok (strNat (m + 1), some (strNat (m + 1))) := by
      rw [hsq]
      unfold takeSeqId
      simp only [hm]
    rw [ht] at hst
    simp only [hres, Except.map] at hst
    have hmk : mkdir D.dirs (joinPath pre (strNat (m + 1) ++ '-' :: name)) = some (joinPath pre (strNat (m + 1) ++ '-' :: name) :: D.dirs) := by
      unfold mkdir
      rw [if_neg (hfree pre name n hdir.symm)]
    simp only [hmk] at hst
    exact ⟨_, _, hst, h4.symm, by rw [hsd], pre, name, n, hdir.symm, rfl⟩

/-- C99.  If a seed was given (and no sequence id, and only values that JSON can express), then an execution can be repeated from its args.json: with the
file in the working directory, and no directory yet with the next sequence id in this name, the execution starts with the same arguments and the same seed.
Its directory has the same name, except for the sequence id. -/
theorem C99_repeat {str : ArgValue F → Text} {cwd : Text} {d d' D : Disk F} {given : String → ArgValue F} {entropy : Int} {r : Started F}
    (h : start str cwd d (.call given) entropy = (d', .ok r)) (hp : ∀ p, Expressible (given p)) (hs : given "seq_id" = .one (.int (-1)))
    (hseed : given "seed" ≠ .one .none)
    (hD : CopiedFrom D given) {m : Nat} (hm : readSeqId D.seq = .ok m)
    (hfree : ∀ pre name n, r.dir = joinPath pre (strNat n ++ '-' :: name) → joinPath pre (strNat (m + 1) ++ '-' :: name) ∉ D.dirs) (entropy' : Int) :
    ∃ D' r', start str cwd D .file entropy' = (D', .ok r') ∧ r'.args = r.args ∧ r'.seed = r.seed ∧
      ∃ pre name n, r.dir = joinPath pre (strNat n ++ '-' :: name) ∧ r'.dir = joinPath pre (strNat (m + 1) ++ '-' :: name) := by
  obtain ⟨D', r', h1, h2, h3, h4⟩ := rerun h hp hs hD hm hfree entropy'
  refine ⟨D', r', h1, h2, ?_, h4⟩
  obtain ⟨_, _, -, -, -, -, h5, -, -⟩ := start_ok (Or.inl ⟨given, rfl, rfl⟩) h
  rw [effective_ne _ (by decide) (by decide)] at h5
  rw [h3, h5]
  unfold seedOf
  split
  · exact absurd ‹_› hseed
  · rfl

/-- C99.  If no seed was given, args.json does not have the one that was drawn: an execution from the file starts with the same arguments, but with
whatever seed is drawn then. -/
theorem C99_no_seed {str : ArgValue F → Text} {cwd : Text} {d d' D : Disk F} {given : String → ArgValue F} {entropy : Int} {r : Started F}
    (h : start str cwd d (.call given) entropy = (d', .ok r)) (hp : ∀ p, Expressible (given p)) (hs : given "seq_id" = .one (.int (-1)))
    (hseed : given "seed" = .one .none)
    (hD : CopiedFrom D given) {m : Nat} (hm : readSeqId D.seq = .ok m)
    (hfree : ∀ pre name n, r.dir = joinPath pre (strNat n ++ '-' :: name) → joinPath pre (strNat (m + 1) ++ '-' :: name) ∉ D.dirs) (entropy' : Int) :
    r.seed = .one (.int entropy) ∧ ∃ D' r', start str cwd D .file entropy' = (D', .ok r') ∧ r'.args = r.args ∧ r'.seed = .one (.int entropy') := by
  obtain ⟨D', r', h1, h2, h3, -⟩ := rerun h hp hs hD hm hfree entropy'
  obtain ⟨_, _, -, -, -, -, h5, -, -⟩ := start_ok (Or.inl ⟨given, rfl, rfl⟩) h
  rw [effective_ne _ (by decide) (by decide), hseed] at h5
  rw [hseed] at h3
  exact ⟨h5, D', r', h1, h2, h3⟩

theorem generatedName_json (str : ArgValue F → Text) {g : String → ArgValue F} (h : ∀ p ∈ parameters.take 5, (g p).json = g p) :
    generatedName str (listed (fun p => (g p).json)) = generatedName str (listed g) := by
  unfold generatedName generateExecutionId
  congr 3
  unfold listed
  simp only [List.map_map, ← List.map_take]
  refine List.map_congr_left (fun p hp => ?_)
  simp only [Function.comp, h p hp]

/-- C99.  An execution with a sequence id of its own, as the executions of a batch run have, cannot be repeated from its args.json while its output is still
there: it fails with `FileExistsError`.  (All values but `parent_dir` are such that JSON can express them; `parent_dir` is a text or a `Path`.) -/
theorem C99_batch {str : ArgValue F → Text} {cwd : Text} {d d' D : Disk F} {given : String → ArgValue F} {entropy : Int} {r : Started F}
    (h : start str cwd d (.call given) entropy = (d', .ok r)) (hp : ∀ p, p ≠ "parent_dir" → Expressible (given p)) (hs : given "seq_id" ≠ .one (.int (-1)))
    (hD : CopiedFrom D given) (hdir : r.dir ∈ D.dirs) (entropy' : Int) :
    (start str cwd D .file entropy').2 = .error .exists := by
  obtain ⟨hD1, hD2⟩ := copied_listed hD
  have hg : ∀ p, p ≠ "parent_dir" → (effective given p).json = effective given p := fun p hpp => json_plain (effective_plain (hp p hpp))
  obtain ⟨seqText, seq, h1, h2, -, -, -, -, -⟩ := start_ok (Or.inl ⟨given, rfl, rfl⟩) h
  have hsq : effective given "seq_id" = given "seq_id" := effective_ne _ (by decide) (by decide)
  have htake : ∀ sq, takeSeqId str sq (given "seq_id") = .ok (str (given "seq_id"), sq) := by
    intro sq
    unfold takeSeqId
    split
    · exact absurd ‹_› hs
    · rfl
  rw [hsq, htake] at h1
  cases h1
  have hname : executionName str (str (given "seq_id")) (listed (fun p => (effective given p).json)) =
      executionName str (str (given "seq_id")) (listed (effective given)) := by
    unfold executionName
    rw [listed_get _ (show "execution_id" ∈ parameters by decide), listed_get _ (show "execution_id" ∈ parameters by decide),
      hg "execution_id" (by decide), generatedName_json str (fun p hpp => hg p (by rintro rfl; revert hpp; decide))]
  have hout : ∀ nm dir, outputPath cwd (listed (effective given)) nm = .ok dir → outputPath cwd (listed (fun p => (effective given p).json)) nm = .ok dir := by
    intro nm dir
    unfold outputPath
    rw [listed_get _ (show "parent_dir" ∈ parameters by decide), listed_get _ (show "parent_dir" ∈ parameters by decide)]
    simp only [bind, Except.bind]
    generalize effective given "parent_dir" = v
    intro hv
    cases v with
    | one s => cases s <;> exact hv
    | list l => cases hv
    | tuple l => cases hv
  have hpath : (executionName str (str (given "seq_id")) (listed (fun p => (effective given p).json))).bind
      (outputPath cwd (listed (fun p => (effective given p).json))) = .ok r.dir := by
    rw [hname]
    cases hx : executionName str (str (given "seq_id")) (listed (effective given)) with
    | error e => rw [hx] at h2; cases h2
    | ok nm => rw [hx] at h2; exact hout nm _ h2
  rw [start_listed str cwd D .file entropy' _ (Or.inr ⟨rfl, hD1, hD2⟩), hg "seq_id" (by decide), hsq, htake]
  simp only [hpath]
  unfold mkdir
  rw [if_pos hdir]

/-- C99.  Without a file args.json in the working directory an execution from a file does not start (`FileNotFoundError`), and nothing changes. -/
theorem C99_no_file (str : ArgValue F → Text) (cwd : Text) {D : Disk F} (h : D.here = none) (entropy : Int) :
    start str cwd D .file entropy = (D, .error .notFound) := by
  unfold start loadArgs
  rw [h]
  rfl

theorem get_missing {a : ArgDict F} {p : String} (h : p ∉ a.map Prod.fst) : a.get p = .error (.key p) := by
  unfold ArgDict.get
  rw [List.find?_eq_none.2]
  intro e he hp
  exact h (List.mem_map.2 ⟨e, he, by simpa using hp⟩)

theorem put_names (a : ArgDict F) (q : String) (v : ArgValue F) : (a.put q v).map Prod.fst = a.map Prod.fst := by
  unfold ArgDict.put
  rw [List.map_map]
  refine List.map_congr_left (fun e _ => ?_)
  simp only [Function.comp]
  split <;> rfl

theorem fillDefault_names {a a' : ArgDict F} {q : String} {v : ArgValue F} (h : fillDefault a q v = .ok a') : a'.map Prod.fst = a.map Prod.fst := by
  unfold fillDefault at h
  cases hx : a.get q with
  | error e => rw [hx] at h; cases h
  | ok x =>
    rw [hx] at h
    simp only [bind, Except.bind] at h
    split at h
    · cases h; exact put_names ..
    · cases h; rfl

theorem readAll_missing {a : ArgDict F} {p : String} (h : p ∉ a.map Prod.fst) : ∀ {l : List String}, p ∈ l → readAll a l ≠ .ok ()
  | [], hp => by cases hp
  | q :: l, hp => by
    unfold readAll
    by_cases hq : p = q
    · subst hq
      rw [get_missing h]
      intro h'; cases h'
    · cases hx : a.get q with
      | error e => intro h'; cases h'
      | ok x => exact readAll_missing h ((List.mem_cons.1 hp).resolve_left hq)

/-- C99.  A file that lacks any of the 23 parameters never gives an execution: it fails with an exception. -/
theorem C99_missing {str : ArgValue F → Text} {cwd : Text} {D D' : Disk F} {file : ArgDict F} {entropy : Int} {p : String} (hf : D.here = some file)
    (hp : p ∈ parameters) (h : p ∉ file.map Prod.fst) (r : Started F) : start str cwd D .file entropy ≠ (D', .ok r) := by
  unfold start loadArgs
  rw [hf]
  simp only [Except.bind]
  cases hfill : fillDefaults file with
  | error e => intro h'; cases h'
  | ok a =>
    have hn : a.map Prod.fst = file.map Prod.fst := by
      unfold fillDefaults at hfill
      cases h1 : fillDefault file "metrics" metricsArg with
      | error e => rw [h1] at hfill; cases hfill
      | ok b =>
        rw [h1] at hfill
        exact (fillDefault_names hfill).trans (fillDefault_names h1)
    have ha : p ∉ a.map Prod.fst := by rw [hn]; exact h
    clear hfill hn h hf
    simp only
    cases h1 : a.get "seed" with
    | error e => intro h'; cases h'
    | ok sd =>
      simp only
      cases h2 : a.get "seq_id" with
      | error e => intro h'; cases h'
      | ok sq =>
        simp only
        cases takeSeqId str D.seq sq with
        | error e => intro h'; cases h'
        | ok v =>
          obtain ⟨seqText, seq⟩ := v
          simp only
          cases h3 : executionName str seqText a with
          | error e => intro h'; cases h'
          | ok nm =>
            simp only
            cases h4 : outputPath cwd a nm with
            | error e => intro h'; cases h'
            | ok dir =>
              simp only
              cases mkdir D.dirs dir with
              | none => intro h'; cases h'
              | some dirs =>
                simp only
                intro h'
                have hr : p ∈ ["seed", "seq_id", "execution_id", "parent_dir"] ++ readLater :=
                  (by decide : ∀ q ∈ parameters, q ∈ ["seed", "seq_id", "execution_id", "parent_dir"] ++ readLater) p hp
                have hl : p ∈ readLater := by
                  rcases List.mem_append.1 hr with hr | hr
                  · exfalso
                    simp only [List.mem_cons, List.not_mem_nil, or_false] at hr
                    rcases hr with rfl | rfl | rfl | rfl
                    · rw [get_missing ha] at h1; cases h1
                    · rw [get_missing ha] at h2; cases h2
                    · unfold executionName at h3; rw [get_missing ha] at h3; cases h3
                    · unfold outputPath at h4; rw [get_missing ha] at h4; cases h4
                  · exact hr
                cases hx : readAll a readLater with
                | error e => rw [hx] at h'; cases h'
                | ok u => exact readAll_missing ha hl hx

/-- the same values for every parameter, except for a few -/
def withValues (l : List (String × ArgValue ℚ)) (p : String) : ArgValue ℚ :=
  match l.find? (fun e => e.1 == p) with
  | some e => e.2
  | none => .one (.int 1)

/-- a text for each value -/
def strDemo : ArgValue ℚ → Text
  | .one (.int i) => (toString i).toList
  | .one (.str t) => t
  | _ => ['?']

def freshDisk : Disk ℚ := { seq := none, dirs := [], here := none, written := [] }

/-- C99.  A partial file can leave something behind: a sequence id is used up, and a directory with a file args.json that cannot be used is created. -/
theorem C99_partial_leaves_files :
    ∃ file : ArgDict ℚ, ∃ D : Disk ℚ, ∃ dir, start strDemo ['/'] { freshDisk with here := some file } .file 7 = (D, .error (.key "k")) ∧
      D.seq = some (strNat 1) ∧ D.dirs = [dir] ∧ D.written = [(dir, file)] :=
  ⟨[("n", .one (.int 5)), ("reward_scheme", .one (.int 0)), ("metrics", .list []), ("agent_profile_distr", .list []), ("seed", .one (.int 4)),
    ("seq_id", .one (.int (-1))), ("execution_id", .one (.str ['x'])), ("parent_dir", .one (.str []))], _, _, rfl, rfl, rfl, rfl⟩

/-! ### Examples -/

/-- the default arguments, with a seed -/
def seeded (s : ArgValue ℚ) : String → ArgValue ℚ := withValues
  [("seed", s), ("seq_id", .one (.int (-1))), ("execution_id", .one (.str ['t', 'e', 'm', 'p'])), ("parent_dir", .one (.str [])),
   ("metrics", .one .none), ("agent_profile_distr", .one .none)]

theorem seeded_plain {s : ArgValue ℚ} (hs : Expressible s) (p : String) : Expressible (seeded s p) := by
  unfold seeded withValues
  split
  · rename_i e he
    have := List.mem_of_find?_eq_some he
    simp only [List.mem_cons, List.not_mem_nil, or_false] at this
    rcases this with rfl | rfl | rfl | rfl | rfl | rfl <;> first | exact hs | (intro t h; cases h)
  · intro t h; cases h

/-- the working directory of a fresh checkout with the file args.json of such an execution -/
def copied (s : ArgValue ℚ) : Disk ℚ := { freshDisk with here := some (parameters.map (fun p => (p, (effective (seeded s) p).json))) }

/-- with seed 42: the repeated execution has seed 42, too -/
example : ∃ d' r D' r', start strDemo ['/', 'a'] { freshDisk with seq := some (strNat 6) } (.call (seeded (.one (.int 42)))) 3 = (d', .ok r) ∧
    r.dir = "/a/output/7-n-1-k-1-a0-1-stake_distr_source-1-agent_profile_distr-1-0-0".toList ∧
    start strDemo ['/', 'a'] (copied (.one (.int 42))) .file 8 = (D', .ok r') ∧ r'.args = r.args ∧ r.seed = .one (.int 42) ∧ r'.seed = .one (.int 42) := by
  obtain ⟨D', r', h1, h2, h3, -⟩ := C99_repeat (str := strDemo) (cwd := ['/', 'a']) (d := { freshDisk with seq := some (strNat 6) })
    (D := copied (.one (.int 42))) (given := seeded (.one (.int 42))) (entropy := 3) rfl
    (seeded_plain (s := .one (.int 42)) (by intro t h; cases h)) rfl (by intro h; cases h) rfl (m := 0) rfl (fun _ _ _ _ h => by cases h) 8
  exact ⟨_, _, D', r', rfl, by decide +kernel, h1, h2, rfl, h3⟩

/-- without a seed: 3 was drawn at first, and 8 when the execution is repeated from the file -/
example : ∃ d' r D' r', start strDemo ['/', 'a'] freshDisk (.call (seeded (.one .none))) 3 = (d', .ok r) ∧
    start strDemo ['/', 'a'] (copied (.one .none)) .file 8 = (D', .ok r') ∧ r'.args = r.args ∧ r.seed = .one (.int 3) ∧ r'.seed = .one (.int 8) := by
  obtain ⟨h0, D', r', h1, h2, h3⟩ := C99_no_seed (str := strDemo) (cwd := ['/', 'a']) (d := freshDisk)
    (D := copied (.one .none)) (given := seeded (.one .none)) (entropy := 3) rfl
    (seeded_plain (s := .one .none) (by intro t h; cases h)) rfl rfl rfl (m := 0) rfl (fun _ _ _ _ h => by cases h) 8
  exact ⟨_, _, D', r', rfl, h1, h2, h0, h3⟩

/-- an execution with a parent directory of its own -/
def placedIn (parent : String) : String → ArgValue ℚ := withValues
  [("seq_id", .one (.int (-1))), ("execution_id", .one (.str ['x'])), ("parent_dir", .one (.str parent.toList)), ("metrics", .list [])]

example : ∃ d' r e' s, start strDemo ['/', 'a'] freshDisk (.call (placedIn "/tmp/b")) 3 = (d', .ok r) ∧ r.dir = "/tmp/b/1-x".toList ∧
    start strDemo ['/', 'a'] freshDisk (.call (placedIn "b")) 3 = (e', .ok s) ∧ s.dir = "/a/output/b/1-x".toList :=
  ⟨_, _, _, _, rfl, ((C99_place (given := placedIn "/tmp/b") (d := freshDisk) (entropy := 3) rfl rfl rfl rfl rfl).1 (by decide) (by decide)).trans (by decide +kernel),
    rfl, ((C99_place (given := placedIn "b") (d := freshDisk) (entropy := 3) rfl rfl rfl rfl rfl).1 (by decide) (by decide)).trans (by decide +kernel)⟩

/-- a generated name -/
def unnamed : String → ArgValue ℚ := withValues
  [("seq_id", .one (.int (-1))), ("execution_id", .one (.str [])), ("parent_dir", .one (.str [])), ("k", .list [.int 3, .int 4]), ("metrics", .list []), ("agent_profile_distr", .one .none)]

example : ∃ d' r, start strDemo ['/', 'a'] freshDisk (.call unnamed) 3 = (d', .ok r) ∧
    r.dir = "/a/output/1-n-1-k-3-4-a0-1-stake_distr_source-1-agent_profile_distr-1-0-0".toList :=
  ⟨_, _, rfl, ((C99_place (given := unnamed) (d := freshDisk) (entropy := 3) rfl rfl rfl rfl rfl).2 (by decide)).trans (by decide +kernel)⟩

/-- an execution of a batch run, with a `Path` as its parent directory -/
def batchMember : String → ArgValue ℚ := withValues
  [("seq_id", .one (.int 3)), ("execution_id", .one (.str ['x'])), ("parent_dir", .one (.other "/a/output/2-batch".toList)), ("metrics", .list [])]

/-- the output of that execution, and its args.json in the working directory -/
def batchDisk : Disk ℚ where
  seq := none
  dirs := ["/a/output/2-batch/3-x".toList]
  here := some (parameters.map (fun p => (p, (effective batchMember p).json)))
  written := []

example : ∃ d' r, start strDemo ['/', 'a'] freshDisk (.call batchMember) 3 = (d', .ok r) ∧ r.dir = "/a/output/2-batch/3-x".toList ∧
    (start strDemo ['/', 'a'] batchDisk .file 8).2 = .error .exists := by
  refine ⟨_, _, rfl, by decide +kernel, C99_batch (given := batchMember) (d := freshDisk) (D := batchDisk) (entropy := 3) rfl ?_ (by intro h; cases h) rfl
    (List.mem_cons.2 (Or.inl (by decide +kernel))) 8⟩
  intro p hp
  unfold batchMember withValues
  split
  · rename_i e he
    have hpe : e.1 = p := by simpa using List.find?_some he
    have := List.mem_of_find?_eq_some he
    simp only [List.mem_cons, List.not_mem_nil, or_false] at this
    rcases this with rfl | rfl | rfl | rfl
    · intro t h; cases h
    · intro t h; cases h
    · exact absurd hpe.symm hp
    · intro s hs; cases hs
  · intro t h; cases h

end RSE.Props
