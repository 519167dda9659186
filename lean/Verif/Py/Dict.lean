import Verif.Py.Basic

/-!
# Python dictionaries with integer keys

Insertion-ordered association lists.  `d[k] = v` keeps the position of an existing key and appends a new one,
`d.pop(k)` removes.  All dictionaries of the modelled code are keyed by integers (pool ids or agent ids).
-/

namespace RSE

/-- A Python `dict` with non-negative integer keys, in insertion order. -/
abbrev Dict (V : Type) := List (Nat × V)

namespace Dict

variable {V W : Type}

/-- `d.get(k)` -/
def get? : Dict V → Nat → Option V
  | [], _ => none
  | (k', v) :: t, k => if k' = k then some v else get? t k

/-- `d[k] = v` -/
def set : Dict V → Nat → V → Dict V
  | [], k, v => [(k, v)]
  | (k', v') :: t, k, v => if k' = k then (k', v) :: t else (k', v') :: set t k v

/-- the dictionary after `d.pop(k, None)` -/
def erase : Dict V → Nat → Dict V
  | [], _ => []
  | (k', v') :: t, k => if k' = k then t else (k', v') :: erase t k

/-- `list(d.keys())` -/
def keys (d : Dict V) : List Nat := d.map Prod.fst

/-- `list(d.values())` -/
def vals (d : Dict V) : List V := d.map Prod.snd

/-- `k in d` -/
def contains (d : Dict V) (k : Nat) : Bool := (d.get? k).isSome

/-- `d[k]`, raising `KeyError`. -/
def getE (d : Dict V) (k : Nat) : Py V :=
  match d.get? k with
  | some v => .ok v
  | none => .error .key

/-- `d.pop(k)`, raising `KeyError`. -/
def popE (d : Dict V) (k : Nat) : Py (Dict V) :=
  match d.get? k with
  | some _ => .ok (d.erase k)
  | none => .error .key

end Dict
end RSE
