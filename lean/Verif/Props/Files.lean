import Verif.Model.Files
import Mathlib.Data.List.Basic
import Mathlib.Data.List.Pairwise
import Mathlib.Data.List.Nodup

/-!
# C57, C58, C59: sequence ids, csv files, output directories
-/

namespace RSE.Props

/-! ## C57 -/

theorem strNat_ne_nil (n : Nat) : strNat n ≠ [] := by
  unfold strNat
  rw [Nat.toDigits_eq_if (by omega)]
  split <;> simp

theorem strNat_digits (n : Nat) : ∀ c ∈ strNat n, c.isDigit = true := fun _ h => Nat.isDigit_of_mem_toDigits (by omega) (by omega) h

theorem parseNat_strNat (n : Nat) : parseNat (strNat n) = .ok n := by
  unfold parseNat
  rw [if_pos ⟨strNat_ne_nil n, List.all_eq_true.2 (strNat_digits n)⟩]
  unfold strNat
  rw [Nat.ofDigitChars_ten_toDigits]

/-- `write_seq_id n` when nobody interferes leaves a file from which `read_seq_id` returns `n`, whatever was there before. -/
theorem C57_roundtrip (d : SeqDisk) (p n : Nat) (hp : d.got p = some (.ok n)) :
    readSeqId ((d.exec (.openW p)).exec (.close p)).file = .ok n := by
  have h1 : d.exec (.openW p) = { d with file := some [] } := by simp [SeqDisk.exec, hp]
  rw [h1]
  simp [SeqDisk.exec, hp, readSeqId, overwrite, parseNat_strNat]

/-- how a run ends, as far as sequence.dat is concerned: it completes, or it is killed before reading, before opening the file for writing, or
between opening (which truncates the file) and closing it -/
inductive Fate where
  | completes | beforeRead | beforeOpen | beforeClose
  deriving DecidableEq

/-- what a run with this fate does to the disk -/
def Fate.events (p : Nat) : Fate → List SeqEvent
  | .completes => [.read p, .openW p, .close p]
  | .beforeRead => []
  | .beforeOpen => [.read p]
  | .beforeClose => [.read p, .openW p]

/-- runs one after the other; the `i`-th one is process `p + i` -/
def runFates : SeqDisk → Nat → List Fate → SeqDisk
  | d, _, [] => d
  | d, p, f :: fs => runFates ((f.events p).foldl SeqDisk.exec d) (p + 1) fs

/-- the ids obtained by the runs that completed, in the order of the runs -/
def idsOf (d : SeqDisk) : Nat → List Fate → List (Option (Py Nat))
  | _, [] => []
  | p, f :: fs => (if f = .completes then [d.got p] else []) ++ idsOf d (p + 1) fs

theorem exec_got (d : SeqDisk) (e : SeqEvent) (q : Nat) (h : e ≠ .read q) : (d.exec e).got q = d.got q := by
  cases e with
  | read p =>
    have : q ≠ p := fun hq => h (by rw [hq])
    simp [SeqDisk.exec, this]
  | openW p => simp only [SeqDisk.exec]; split <;> rfl
  | close p => simp only [SeqDisk.exec]; split <;> rfl

theorem runFates_got (fs : List Fate) : ∀ (d : SeqDisk) (p q : Nat), q < p → (runFates d p fs).got q = d.got q := by
  induction fs with
  | nil => intro d p q _; rfl
  | cons f fs ih =>
    intro d p q hq
    rw [runFates, ih _ _ _ (by omega)]
    have hne : SeqEvent.read p ≠ .read q := fun h => by cases h; omega
    cases f <;> simp [Fate.events, exec_got, hne]

theorem run_completes (d : SeqDisk) (p n : Nat) (h : readSeqId d.file = .ok n) :
    (((Fate.completes.events p).foldl SeqDisk.exec d).file = some (strNat (n + 1))) ∧
    (((Fate.completes.events p).foldl SeqDisk.exec d).got p = some (.ok (n + 1))) := by
  have h1 : (d.exec (.read p)).got p = some (.ok (n + 1)) := by simp [SeqDisk.exec, h]; rfl
  have h2 : (d.exec (.read p)).exec (.openW p) = { d.exec (.read p) with file := some [] } := by
    rw [SeqDisk.exec.eq_def (d.exec (.read p))]; simp only [h1]
  simp only [Fate.events, List.foldl_cons, List.foldl_nil]
  refine ⟨?_, ?_⟩
  · rw [h2, SeqDisk.exec.eq_def]
    simp [h1, overwrite]
  · rw [exec_got _ _ _ (by nofun), exec_got _ _ _ (by nofun)]
    exact h1

/-- C57.  Runs one after the other, any of which may be killed except between truncating and writing the file: the runs that complete get
consecutive ids, starting after the stored one (1 without a file), and nothing is ever raised. -/
theorem C57_increasing (fs : List Fate) (hfs : Fate.beforeClose ∉ fs) : ∀ (d : SeqDisk) (p n : Nat), readSeqId d.file = .ok n →
    idsOf (runFates d p fs) p fs = (List.range' (n + 1) (fs.count .completes)).map (fun i => some (.ok i)) ∧
    readSeqId (runFates d p fs).file = .ok (n + fs.count .completes) := by
  induction fs with
  | nil => intro d p n h; exact ⟨rfl, h⟩
  | cons f fs ih =>
    intro d p n h
    have hfs' : Fate.beforeClose ∉ fs := fun hm => hfs (List.mem_cons_of_mem _ hm)
    rw [runFates, idsOf]
    cases f with
    | beforeClose => exact absurd List.mem_cons_self hfs
    | completes =>
      obtain ⟨h1, h2⟩ := run_completes d p n h
      obtain ⟨g1, g2⟩ := ih hfs' _ (p + 1) (n + 1) (by rw [h1]; exact parseNat_strNat _)
      rw [g1, g2, runFates_got _ _ _ _ (Nat.lt_succ_self p), h2]
      refine ⟨?_, by simp; omega⟩
      simp [List.range'_succ]
    | beforeRead =>
      obtain ⟨g1, g2⟩ := ih hfs' d (p + 1) n h
      simp only [Fate.events, List.foldl_nil]
      rw [g1, g2]
      simp
    | beforeOpen =>
      obtain ⟨g1, g2⟩ := ih hfs' (d.exec (.read p)) (p + 1) n h
      simp only [Fate.events, List.foldl_cons, List.foldl_nil]
      rw [g1, g2]
      simp

/-- The first id is 1 when there is no sequence.dat. -/
theorem C57_first (d : SeqDisk) (hd : d.file = none) : readSeqId d.file = .ok 0 ∧
    idsOf (runFates d 0 [.completes]) 0 [.completes] = [some (.ok 1)] :=
  ⟨by rw [hd]; rfl, (C57_increasing [.completes] (by decide) d 0 0 (by rw [hd]; rfl)).1⟩

theorem broken_stays (fs : List Fate) : ∀ (d : SeqDisk) (p : Nat), d.file = some [] →
    idsOf (runFates d p fs) p fs = List.replicate (fs.count .completes) (some (.error .value)) := by
  induction fs with
  | nil => intro d p _; rfl
  | cons f fs ih =>
    intro d p h
    have hread : d.exec (.read p) = { d with got := fun q => if q = p then some (.error .value) else d.got q } := by
      simp only [SeqDisk.exec, h]; rfl
    have hstop : ∀ e ∈ [SeqEvent.openW p, .close p], (d.exec (.read p)).exec e = d.exec (.read p) := by
      intro e he
      rw [hread]
      simp at he
      rcases he with rfl | rfl <;> simp [SeqDisk.exec]
    have hfile : (d.exec (.read p)).file = some [] := h
    rw [runFates, idsOf]
    cases f with
    | completes =>
      have he : (Fate.completes.events p).foldl SeqDisk.exec d = d.exec (.read p) := by
        simp only [Fate.events, List.foldl_cons, List.foldl_nil]
        rw [hstop _ (by simp), hstop _ (by simp)]
      rw [he, ih _ _ hfile, runFates_got _ _ _ _ (Nat.lt_succ_self p), hread]
      simp [List.replicate_succ]
    | beforeRead => simp only [Fate.events, List.foldl_nil]; rw [ih _ _ h]; simp
    | beforeOpen => simp only [Fate.events, List.foldl_cons, List.foldl_nil]; rw [ih _ _ hfile]; simp
    | beforeClose =>
      have he : (Fate.beforeClose.events p).foldl SeqDisk.exec d = d.exec (.read p) := by
        simp only [Fate.events, List.foldl_cons, List.foldl_nil]
        rw [hstop _ (by simp)]
      rw [he, ih _ _ hfile]; simp

/-- A run killed between truncating and writing sequence.dat breaks every later run: whatever happens afterwards, all of them raise
`ValueError`. -/
theorem C57_killed_while_writing (d : SeqDisk) (p n : Nat) (h : readSeqId d.file = .ok n) (fs : List Fate) :
    let d' := (Fate.beforeClose.events p).foldl SeqDisk.exec d
    idsOf (runFates d' (p + 1) fs) (p + 1) fs = List.replicate (fs.count .completes) (some (.error .value)) := by
  intro d'
  refine broken_stays fs d' (p + 1) ?_
  have h1 : (d.exec (.read p)).got p = some (.ok (n + 1)) := by simp [SeqDisk.exec, h]; rfl
  simp only [d', Fate.events, List.foldl_cons, List.foldl_nil]
  rw [SeqDisk.exec.eq_def (d.exec (.read p))]; simp only [h1]

/-- Two runs started at the same time can get the same id. -/
theorem C57_same_id : ∃ es : List SeqEvent, es.Perm (Fate.completes.events 0 ++ Fate.completes.events 1) ∧
    (es.foldl SeqDisk.exec ⟨none, fun _ => none⟩).got 0 = some (.ok 1) ∧ (es.foldl SeqDisk.exec ⟨none, fun _ => none⟩).got 1 = some (.ok 1) :=
  ⟨[.read 0, .read 1, .openW 0, .close 0, .openW 1, .close 1], by decide, rfl, rfl⟩

example : idsOf (runFates ⟨some "41".toList, fun _ => none⟩ 0 [.completes, .beforeOpen, .completes, .completes]) 0
    [.completes, .beforeOpen, .completes, .completes] = [some (.ok 42), some (.ok 43), some (.ok 44)] :=
  (C57_increasing _ (by decide) _ 0 41 (by decide +kernel)).1

/-! ## C58 -/

variable {R : Type}

/-- the rows of a csv file -/
def rowsOf (ls : List (Line R)) : List R := ls.filterMap (fun l => match l with | .header => none | .row r => some r)

/-- the number of header lines -/
def headers (ls : List (Line R)) : Nat := ls.countP (fun l => match l with | .header => true | .row _ => false)

/-- C58.  Any number of successive calls on a new file give the header, once and first, and then all rows in order. -/
theorem C58_one_header (d : CsvDisk R) (hd : d.lines = []) (r : R) (rs : List R) :
    ((r :: rs).foldl CsvDisk.write d).lines = .header :: (r :: rs).map .row := by
  have h1 : (d.write r).lines = [.header, .row r] := by simp [CsvDisk.write, CsvDisk.exec, hd]
  have key : ∀ (rs : List R) (d : CsvDisk R), d.lines ≠ [] → (rs.foldl CsvDisk.write d).lines = d.lines ++ rs.map .row := by
    intro rs
    induction rs with
    | nil => intro d _; simp
    | cons r rs ih =>
      intro d hne
      have h2 : (d.write r).lines = d.lines ++ [.row r] := by
        have : d.lines.isEmpty = false := by simpa using hne
        simp [CsvDisk.write, CsvDisk.exec, this]
      rw [List.foldl_cons, ih _ (by rw [h2]; simp), h2]
      simp
  rw [List.foldl_cons, key _ _ (by rw [h1]; simp), h1]
  simp

/-- later calls, on a file that holds something, only add rows -/
theorem C58_append (d : CsvDisk R) (hne : d.lines ≠ []) (rs : List R) : (rs.foldl CsvDisk.write d).lines = d.lines ++ rs.map .row := by
  induction rs generalizing d with
  | nil => simp
  | cons r rs ih =>
    have h2 : (d.write r).lines = d.lines ++ [.row r] := by
      have : d.lines.isEmpty = false := by simpa using hne
      simp [CsvDisk.write, CsvDisk.exec, this]
    rw [List.foldl_cons, ih _ (by rw [h2]; simp), h2]
    simp

/-- the rows written by a sequence of steps, in the order in which the files are closed -/
def closedRows (es : List (CsvEvent R)) : List R := es.filterMap (fun e => match e with | .openA _ => none | .close _ r => some r)

/-- the number of opens -/
def opens (es : List (CsvEvent R)) : Nat := es.countP (fun e => match e with | .openA _ => true | .close _ _ => false)

/-- every process closes only what it has opened: `p` may be closed if it is among the open ones -/
def WellFormed : List Nat → List (CsvEvent R) → Prop
  | _, [] => True
  | open', .openA p :: es => p ∉ open' ∧ WellFormed (p :: open') es
  | open', .close p _ :: es => p ∈ open' ∧ WellFormed (open'.erase p) es

/-- No row is lost or duplicated or reordered, whatever the interleaving of any number of writers. -/
theorem C58_rows (es : List (CsvEvent R)) (d : CsvDisk R) : rowsOf (es.foldl CsvDisk.exec d).lines = rowsOf d.lines ++ closedRows es := by
  induction es generalizing d with
  | nil => simp [closedRows]
  | cons e es ih =>
    rw [List.foldl_cons, ih]
    cases e with
    | openA p => simp [CsvDisk.exec, closedRows]
    | close p r =>
      have : rowsOf (d.exec (.close p r)).lines = rowsOf d.lines ++ [r] := by
        simp only [CsvDisk.exec, rowsOf]
        split <;> simp
      rw [this]
      simp [closedRows]

theorem header_first (es : List (CsvEvent R)) : ∀ (d : CsvDisk R) (os : List Nat), WellFormed os es →
    (∀ p ∈ os, d.lines = [] → d.fresh p = true) → (d.lines = [] ∨ d.lines.head? = some .header) →
    ((es.foldl CsvDisk.exec d).lines = [] ∨ (es.foldl CsvDisk.exec d).lines.head? = some .header) := by
  induction es with
  | nil => intro d os _ _ h; exact h
  | cons e es ih =>
    intro d os hw hos h
    rw [List.foldl_cons]
    cases e with
    | openA p =>
      refine ih _ (p :: os) hw.2 ?_ h
      intro q hq hl
      simp only [CsvDisk.exec] at hl ⊢
      split
      · simp [hl]
      · rename_i hne
        exact hos q ((List.mem_cons.1 hq).resolve_left hne) hl
    | close p r =>
      refine ih _ (os.erase p) hw.2 ?_ (Or.inr ?_)
      · intro q _ hl
        simp only [CsvDisk.exec] at hl
        split at hl <;> simp at hl
      · rcases h with hl | hl
        · simp [CsvDisk.exec, hos p hw.1 hl, hl]
        · simp only [CsvDisk.exec]
          cases hd : d.lines with
          | nil => rw [hd] at hl; simp at hl
          | cons l ls => rw [hd] at hl; simpa using hl

/-- Whatever the interleaving, the first line of a new file is the header. -/
theorem C58_header_first (es : List (CsvEvent R)) (d : CsvDisk R) (hd : d.lines = []) (hw : WellFormed [] es) :
    (es.foldl CsvDisk.exec d).lines = [] ∨ (es.foldl CsvDisk.exec d).lines.head? = some .header :=
  header_first es d [] hw (by simp) (Or.inl hd)

/-- With two writers at the same time a new file gets the header twice, the second time between the rows. -/
theorem C58_two_headers (r r' : R) : ∃ es : List (CsvEvent R), WellFormed [] es ∧
    (es.foldl CsvDisk.exec ⟨[], fun _ => false⟩).lines = [.header, .row r, .header, .row r'] :=
  ⟨[.openA 0, .openA 1, .close 0 r, .close 1 r'], by simp [WellFormed], rfl⟩

/-- If the first writer is done before anybody else opens the file, there is exactly one header however the others interleave. -/
theorem C58_first_writer_alone (d : CsvDisk R) (hd : d.lines = []) (p : Nat) (r : R) (es : List (CsvEvent R)) (hw : WellFormed [] es) :
    headers ((CsvEvent.openA p :: .close p r :: es).foldl CsvDisk.exec d).lines = 1 := by
  have key : ∀ (es : List (CsvEvent R)) (d : CsvDisk R) (os : List Nat), WellFormed os es → (∀ q ∈ os, d.fresh q = false) → d.lines ≠ [] →
      headers (es.foldl CsvDisk.exec d).lines = headers d.lines := by
    intro es
    induction es with
    | nil => intro d os _ _ _; rfl
    | cons e es ih =>
      intro d os hw hos hne
      rw [List.foldl_cons]
      cases e with
      | openA q =>
        rw [ih (d.exec (.openA q)) (q :: os) hw.2 ?_ hne]
        · rfl
        · intro q' hq'
          simp only [CsvDisk.exec]
          split
          · simpa using hne
          · rename_i h; exact hos _ ((List.mem_cons.1 hq').resolve_left h)
      | close q r =>
        have hl : (d.exec (.close q r)).lines = d.lines ++ [.row r] := by simp [CsvDisk.exec, hos q hw.1]
        rw [ih (d.exec (.close q r)) (os.erase q) hw.2 (fun q' hq' => hos q' (List.mem_of_mem_erase hq')) (by rw [hl]; simp), hl]
        simp [headers]
  have hl : ((d.exec (.openA p)).exec (.close p r)).lines = [.header, .row r] := by simp [CsvDisk.exec, hd]
  rw [List.foldl_cons, List.foldl_cons, key es _ [] hw (by simp) (by rw [hl]; simp), hl]
  rfl

example : ((CsvEvent.openA 0 :: .close 0 10 :: [.openA 1, .openA 2, .close 2 30, .close 1 20]).foldl CsvDisk.exec ⟨[], fun _ => false⟩).lines =
    [.header, .row 10, .row 30, .row 20] ∧ WellFormed [] [CsvEvent.openA 1, .openA 2, .close 2 30, .close 1 20] := ⟨rfl, by simp [WellFormed]⟩

/-! ## C59 -/

theorem split_at_dash : ∀ {a b x y : Text}, '-' ∉ a → '-' ∉ b → a ++ '-' :: x = b ++ '-' :: y → a = b ∧ x = y
  | [], [], _, _, _, _, h => by simpa using h
  | [], _ :: _, _, _, _, hb, h => by simp at h; exact absurd (Or.inl h.1) (by simpa using hb)
  | _ :: _, [], _, _, ha, _, h => by simp at h; exact absurd h.1 (fun e => ha (by simp [e]))
  | a :: as, b :: bs, x, y, ha, hb, h => by
    simp at h ha hb
    obtain ⟨h1, h2⟩ := split_at_dash ha.2 hb.2 h.2
    exact ⟨by rw [h.1, h1], h2⟩

theorem dash_notMem_strNat (n : Nat) : '-' ∉ strNat n := fun h => absurd (strNat_digits n _ h) (by decide)

theorem strNat_injective {m n : Nat} (h : strNat m = strNat n) : m = n := by
  have := (parseNat_strNat m).symm.trans (h ▸ parseNat_strNat n)
  injection this

/-- C59.  The name of the output directory determines the sequence id: executions with different sequence ids have different
names, whatever identifiers and arguments they were given. -/
theorem C59_directories_differ (s s' : Nat) (given given' : Text) (args args' : List (Text × ArgVal)) (h : s ≠ s') :
    executionId s given args ≠ executionId s' given' args' := fun he =>
  h (strNat_injective (split_at_dash (dash_notMem_strNat s) (dash_notMem_strNat s') he).1)

/-- With the same sequence id the directories of executions with different given identifiers differ, too. -/
theorem C59_identifiers_differ (s s' : Nat) (given given' : Text) (args args' : List (Text × ArgVal)) (h : given ≠ given')
    (hg : given ≠ [] ∧ given ≠ "temp".toList) (hg' : given' ≠ [] ∧ given' ≠ "temp".toList) :
    executionId s given args ≠ executionId s' given' args' := by
  intro he
  have := (split_at_dash (dash_notMem_strNat s) (dash_notMem_strNat s') he).2
  rw [if_neg (by simpa using hg), if_neg (by simpa using hg')] at this
  exact h this

/-- The identifier written to the experiment tracker (the part after the first dash) is the one that was given. -/
theorem C59_tracker_identifier (s : Nat) (given : Text) (args : List (Text × ArgVal)) (hg : given ≠ [] ∧ given ≠ "temp".toList) :
    afterDash (executionId s given args) = .ok given := by
  have key : ∀ (a x : Text), '-' ∉ a → afterDash (a ++ '-' :: x) = .ok x := by
    intro a
    induction a with
    | nil => intro x _; rfl
    | cons c cs ih =>
      intro x h
      simp at h
      rw [List.cons_append, afterDash, if_neg (fun e => h.1 e.symm), ih x h.2]
  unfold executionId
  rw [key _ _ (dash_notMem_strNat s), if_neg (by simpa using hg)]

/-- Generated identifiers have at most 100 characters. -/
theorem C59_length (args : List (Text × ArgVal)) : (generateExecutionId args).length ≤ 100 := by
  unfold generateExecutionId
  rw [List.length_take]
  omega

/-- Generated identifiers depend on the first five arguments only, so that executions which differ in a later argument have the same one:
it is the sequence id that keeps them apart. -/
theorem C59_first_five (args args' : List (Text × ArgVal)) (h : args.take 5 = args'.take 5) :
    generateExecutionId args = generateExecutionId args' := by unfold generateExecutionId; rw [h]

/-- creating directories one after the other; a run that finds its directory existing raises and creates nothing -/
def mkdirs : List Text → List Text → List Text
  | dirs, [] => dirs
  | dirs, n :: ns => mkdirs ((mkdir dirs n).getD dirs) ns

/-- No two executions ever write to the same directory: a run either gets a directory that did not exist, or raises. -/
theorem C59_never_shared (dirs ns : List Text) (h : dirs.Nodup) : (mkdirs dirs ns).Nodup ∧
    ∀ n, mkdir (mkdirs dirs ns) n = none ↔ n ∈ dirs ∨ n ∈ ns := by
  induction ns generalizing dirs with
  | nil => exact ⟨h, fun n => by by_cases hn : n ∈ dirs <;> simp [mkdirs, mkdir, hn]⟩
  | cons m ns ih =>
    rw [mkdirs]
    by_cases hm : m ∈ dirs
    · have he : (mkdir dirs m).getD dirs = dirs := by simp [mkdir, hm]
      rw [he]
      refine ⟨(ih dirs h).1, fun n => ((ih dirs h).2 n).trans ?_⟩
      constructor
      · rintro (h | h)
        · exact Or.inl h
        · exact Or.inr (List.mem_cons_of_mem _ h)
      · rintro (h | h)
        · exact Or.inl h
        · rcases List.mem_cons.1 h with rfl | h
          · exact Or.inl hm
          · exact Or.inr h
    · have he : (mkdir dirs m).getD dirs = m :: dirs := by simp [mkdir, hm]
      rw [he]
      have hn : (m :: dirs).Nodup := List.nodup_cons.2 ⟨hm, h⟩
      refine ⟨(ih _ hn).1, fun n => ((ih _ hn).2 n).trans ?_⟩
      simp only [List.mem_cons]
      tauto

example : executionId 17 [] [("n".toList, .single "100".toList), ("k".toList, .list ["10".toList, "20".toList])] = "17-n-100-k-10-20".toList := by
  decide +kernel

example : afterDash (executionId 17 "my-run".toList []) = .ok "my-run".toList := C59_tracker_identifier 17 _ _ (by decide)

end RSE.Props
