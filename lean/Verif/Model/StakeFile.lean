import Verif.Model.Construct
import Verif.Model.Files

/-!
# logic/helper.py:26-50: the file with stakes

Simplifications: the text has no quotation marks and no carriage returns, which `csv.reader` treats specially; `float` is a parameter.
-/

namespace RSE

/-- iterating over a file: the lines without their ends; a newline at the end of the text does not start another line -/
def fileLines : Text → List Text
  | [] => []
  | c :: cs =>
    if c = '\n' then [] :: fileLines cs
    else match fileLines cs with
      | [] => [[c]]
      | l :: ls => (c :: l) :: ls

/-- the fields of a line, for a line that is not empty -/
def splitComma : Text → List Text
  | [] => [[]]
  | c :: cs =>
    if c = ',' then [] :: splitComma cs
    else match splitComma cs with
      | [] => [[c]]
      | f :: fs => (c :: f) :: fs

/-- a row of `csv.reader`: an empty line is an empty row -/
def csvRow (line : Text) : List Text := if line = [] then [] else splitComma line

/-- `row[0]` -/
def rowHead : List Text → Py Text
  | [] => .error .index
  | f :: _ => .ok f

/-- the values in a file (helper.py:31-34, 38-40); `parse` is `float`, which raises `ValueError` for a text that is no number -/
def readStakes {K : Type} (parse : Text → Py K) (text : Text) : Py (List K) :=
  (fileLines text).mapM (fun l => do parse (← rowHead (csvRow l)))

/-- `read_stake_distr_from_file(n)` (helper.py:26-50): the file for `n` agents if there is one, otherwise the default file; `none` is `FileNotFoundError` -/
def stakesFromFile {K : Type} [Field K] [LinearOrder K] [IsStrictOrderedRing K] (parse : Text → Py K) (own fallback : Option Text) (n : Nat)
    (choice : Nat → Nat) : Option (Py (List K)) :=
  match own.or fallback with
  | none => none
  | some text => some (do stakesFile n (← readStakes parse text) choice)

end RSE
