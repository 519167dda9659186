import Verif.Model.CommandLine

/-!
# What a command line says (specification for C120)

A command line is a sequence of settings.  A setting is the name of an option, or an abbreviation that fits no other option, followed by as many values as the option takes, either as further words
or (one value) after `=`; or it is the name of a switch.
-/

namespace RSE.Cmd

/-- The word `w` names the option with effect `a`: in full, or by an abbreviation that no other option string begins with. -/
def Names (names : List (Text × Act)) (w : Text) (a : Act) : Prop :=
  (w, a) ∈ names ∨
    ((∀ b, (w, b) ∉ names) ∧ (∃ c cs, w = '-' :: '-' :: c :: cs) ∧ '=' ∉ w ∧ ∃ name, (name, a) ∈ names ∧ w <+: name ∧ ∀ n ∈ names, w <+: n.1 → n.1 = name)

/-- a minus sign and digits, or a minus sign and a decimal fraction -/
def NegativeNumber (w : Text) : Prop :=
  (∃ ds, w = '-' :: ds ∧ ds ≠ [] ∧ ∀ c ∈ ds, '0' ≤ c ∧ c ≤ '9') ∨
    ∃ ds es, w = '-' :: (ds ++ '.' :: es) ∧ es ≠ [] ∧ (∀ c ∈ ds, '0' ≤ c ∧ c ≤ '9') ∧ ∀ c ∈ es, '0' ≤ c ∧ c ≤ '9'

/-- A word that is a value: it does not begin with a minus sign, or is just that; or it is a negative number or contains a space, and is no option in spite of that. -/
def Plain (names : List (Text × Act)) (w : Text) : Prop :=
  w.head? ≠ some '-' ∨ w = ['-'] ∨
    ((NegativeNumber w ∨ ' ' ∈ w) ∧ ¬ ['-', 'h'] <+: w ∧ ∀ n ∈ names, ¬ (['-', '-'] <+: w ∧ w.takeWhile (· ≠ '=') <+: n.1))

/-- how many values an option takes -/
def Nargs.Allows : Nargs → Nat → Prop
  | .single, n => n = 1
  | .optional, n => n ≤ 1
  | .star, _ => True
  | .plus, n => 1 ≤ n
  | .exactly m, n => n = m

/-- The text `t` is a value of this type, namely `a`. -/
def Kind.Means (R : Reader) (t : Text) (a : Atom) : Kind → Prop
  | .positiveInt => ∃ i, R.int t = some i ∧ 0 < i ∧ a = .int i
  | .nonNegativeInt => ∃ i, R.int t = some i ∧ 0 ≤ i ∧ a = .int i
  | .positiveFloat => ∃ x, R.float t = some x ∧ x.le 0 = false ∧ a = .float x
  | .nonNegativeFloat => ∃ x, R.float t = some x ∧ x.lt 0 = false ∧ a = .float x
  | .fraction => ∃ x, R.float t = some x ∧ x.lt 0 = false ∧ x.gt 1 = false ∧ a = .float x
  | .int => ∃ i, R.int t = some i ∧ a = .int i
  | .float => ∃ x, R.float t = some x ∧ a = .float x
  | .str => a = .str t
  | .lower => a = .str (t.map Char.toLower)

/-- ... and among the choices of the option, if it has choices. -/
def Opt.Means (R : Reader) (o : Opt) (t : Text) (a : Atom) : Prop := o.kind.Means R t a ∧ ∀ l, o.choices = some l → a ∈ l

/-- The texts `ts` give the option the value `v`: nothing at all is `None`; one text is a value if the option takes at most one; otherwise the value is a list. -/
def Opt.Gives (R : Reader) (o : Opt) (ts : List Text) (v : Value) : Prop :=
  (o.nargs = .optional ∧ ts = [] ∧ v = .one .none) ∨
    ((o.nargs = .optional ∨ o.nargs = .single) ∧ ∃ t a, ts = [t] ∧ o.Means R t a ∧ v = .one a) ∨
    (o.nargs ≠ .optional ∧ o.nargs ≠ .single ∧ ∃ as, List.Forall₂ (o.Means R) ts as ∧ v = .list as)

/-- These words set the option to the value. -/
inductive Sets (R : Reader) (names : List (Text × Act)) : List Text → String → Value → Prop
  | values {w : Text} {o : Opt} {ts : List Text} {v : Value} (hw : Names names w (.set o)) (hp : ∀ t ∈ ts, Plain names t) (hn : o.nargs.Allows ts.length)
      (hv : o.Gives R ts v) : Sets R names (w :: ts) o.dest v
  | equals {w : Text} {o : Opt} {t : Text} {v : Value} (hw : Names names w (.set o)) (hn : o.nargs.Allows 1) (hv : o.Gives R [t] v) :
      Sets R names [w ++ '=' :: t] o.dest v
  | switch {w : Text} {d : String} {b : Bool} (hw : Names names w (.switch d b)) : Sets R names [w] d (.one (.bool b))

/-- the default of an option -/
def Entry.initial : Entry → Value
  | .opt o => o.default
  | .switch _ b => .one (.bool b)

/-- a setting: words, option and value -/
abbrev Setting := List Text × String × Value

/-- the value of an option: that of its last setting, or its default -/
def finalValue (l : List Setting) (e : Entry) : Value := ((l.filter (fun s => s.2.1 = e.dest)).getLast?.map (fun s => s.2.2)).getD e.initial

/-- what is assumed of tables: names differ and contain no `=`, and texts as defaults are as the conversion would have them -/
structure Table (table : List Entry) : Prop where
  names : ((optionStrings table).map Prod.fst).Nodup
  dests : (table.map Entry.dest).Nodup
  noEq : ∀ e ∈ table, '=' ∉ e.dest.toList
  nonempty : ∀ e ∈ table, e.dest.toList ≠ []
  defaults : ∀ o, Entry.opt o ∈ table → ∀ t, o.default = .one (.str t) → o.kind = .str ∨ (o.kind = .lower ∧ t.map Char.toLower = t)

end RSE.Cmd
