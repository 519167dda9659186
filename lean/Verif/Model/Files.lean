import Verif.Py.Basic

/-!
# Files: sequence.dat, csv results, output directories (logic/helper.py:244-250, 343-362; logic/sim.py:48-62)

Texts are lists of characters.  Several processes may use the same files (custom_batchrunner.py:113, or simulations started in parallel), so the two
functions that write to shared files are split into the steps between which another process can run, or at which the process can be killed: opening the file,
and closing it (what was written is in a buffer until then; the texts written here are far shorter than the buffer of 8192 bytes).
-/

namespace RSE

/-- a text -/
abbrev Text := List Char

/-- Python's `str(n)` for `n ≥ 0` -/
def strNat (n : Nat) : Text := Nat.toDigits 10 n

/-- Python's `int(s)` on a text of decimal digits; anything else (in particular the empty text) is a `ValueError`.  Simplification: Python
also accepts surrounding white space, a sign and single underscores, none of which `write_seq_id` ever writes. -/
def parseNat (s : Text) : Py Nat :=
  if s ≠ [] ∧ s.all Char.isDigit then .ok (Nat.ofDigitChars 10 s 0) else .error .value

/-- `read_seq_id` (helper.py:343-349); the file is `none` if it does not exist -/
def readSeqId (file : Option Text) : Py Nat :=
  match file with
  | none => .ok 0
  | some s => parseNat s

/-- `write_seq_id` (helper.py:352-354), second half: the text replaces what the file holds at offset 0 (normally nothing, as opening with mode
`'w'` has truncated it, but another process may have written in between) -/
def overwrite (old new : Text) : Text := new ++ old.drop new.length

/-- sequence.dat, and for each process the id it obtained (or the exception its read raised) -/
structure SeqDisk where
  file : Option Text
  got : Nat → Option (Py Nat)

/-- the steps of a process that takes a sequence id (sim.py:50-51, custom_batchrunner.py:60-61) -/
inductive SeqEvent where
  | read (p : Nat)
  | openW (p : Nat)
  | close (p : Nat)
  deriving DecidableEq

/-- one step; a process whose read raised does nothing more -/
def SeqDisk.exec (d : SeqDisk) : SeqEvent → SeqDisk
  | .read p => { d with got := fun q => if q = p then some (do let n ← readSeqId d.file; .ok (n + 1)) else d.got q }
  | .openW p =>
    match d.got p with
    | some (.ok _) => { d with file := some [] }
    | _ => d
  | .close p =>
    match d.got p with
    | some (.ok n) => { d with file := some (overwrite (d.file.getD []) (strNat n)) }
    | _ => d

/-- `write_to_csv` (helper.py:357-362): a csv file as the list of its lines; a line is the header or a row -/
inductive Line (R : Type) where
  | header
  | row (r : R)
  deriving DecidableEq

/-- a csv file, and for each process whether `f.tell() == 0` held when it opened the file -/
structure CsvDisk (R : Type) where
  lines : List (Line R)
  fresh : Nat → Bool

/-- the steps of `write_to_csv`; `r` is the row that process `p` writes -/
inductive CsvEvent (R : Type) where
  | openA (p : Nat)
  | close (p : Nat) (r : R)

/-- one step: opening with mode `'a'` positions at the end, so `tell()` is 0 exactly for an empty file; closing appends the buffer -/
def CsvDisk.exec {R : Type} (d : CsvDisk R) : CsvEvent R → CsvDisk R
  | .openA p => { d with fresh := fun q => if q = p then d.lines.isEmpty else d.fresh q }
  | .close p r => { d with lines := d.lines ++ (if d.fresh p then [.header, .row r] else [.row r]) }

/-- an undisturbed call of `write_to_csv` -/
def CsvDisk.write {R : Type} (d : CsvDisk R) (r : R) : CsvDisk R := (d.exec (.openA 0)).exec (.close 0 r)

/-- `'-'.join(ts)` -/
def joinDash : List Text → Text
  | [] => []
  | [t] => t
  | t :: u :: ts => t ++ '-' :: joinDash (u :: ts)

/-- the value of a command-line argument, as far as `generate_execution_id` looks at it: a list (of printed values) or anything else -/
inductive ArgVal where
  | single (t : Text)
  | list (ts : List Text)

/-- `generate_execution_id` (helper.py:244-250) -/
def generateExecutionId (args : List (Text × ArgVal)) : Text :=
  (joinDash ((args.take 5).map (fun e =>
    match e.2 with
    | .single t => e.1 ++ '-' :: t
    | .list ts => e.1 ++ '-' :: joinDash ts))).take 100

/-- the execution id (sim.py:54-58): a given one, or a generated one if none (or 'temp') was given, after the sequence id -/
def executionId (seq : Nat) (given : Text) (args : List (Text × ArgVal)) : Text :=
  strNat seq ++ '-' :: (if given = [] ∨ given = ['t', 'e', 'm', 'p'] then generateExecutionId args else given)

/-- `execution_id[execution_id.index('-') + 1:]` (sim.py:343): what goes to the experiment tracker; `index` raises `ValueError` without a dash -/
def afterDash : Text → Py Text
  | [] => .error .value
  | c :: cs => if c = '-' then .ok cs else afterDash cs

/-- `Path.mkdir(parents=True)` (sim.py:62, custom_batchrunner.py:64) among the directories that exist already: `none` is `FileExistsError` -/
def mkdir (dirs : List Text) (name : Text) : Option (List Text) := if name ∈ dirs then none else some (name :: dirs)

end RSE
