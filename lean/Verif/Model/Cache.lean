import Verif.Py.Basic

/-!
# functools.lru_cache, as used on the helpers of logic/helper.py (lines 182, 190, 253, 266, 272, 277, 298, 303)
-/

namespace RSE

variable {κ V : Type}

/-- a cache: key and result, most recently used first -/
abbrev Cache (κ V : Type) := List (κ × V)

/-- look a key up with Python's `==` -/
def Cache.find (eq : κ → κ → Bool) (c : Cache κ V) (k : κ) : Option (κ × V) := List.find? (fun e => eq e.1 k) c

/-- one call of a function decorated with `@lru_cache(maxsize)`: on a hit the entry becomes the most recent one and the stored result is
returned; on a miss the function is called; if it returns, the result is stored, and the least recently used entry is dropped if the cache is full; if
it raises, nothing is stored -/
def Cache.call (eq : κ → κ → Bool) (maxsize : Nat) (f : κ → Py V) (c : Cache κ V) (k : κ) : Py V × Cache κ V :=
  match c.find eq k with
  | some e => (.ok e.2, e :: c.eraseP (fun e => eq e.1 k))
  | none =>
    match f k with
    | .error err => (.error err, c)
    | .ok v => (.ok v, (if maxsize ≤ c.length then (k, v) :: c.dropLast else (k, v) :: c))

/-- a sequence of calls, starting with an empty cache -/
def Cache.calls (eq : κ → κ → Bool) (maxsize : Nat) (f : κ → Py V) : Cache κ V → List κ → List (Py V) × Cache κ V
  | c, [] => ([], c)
  | c, k :: ks =>
    let r := c.call eq maxsize f k
    let rest := Cache.calls eq maxsize f r.2 ks
    (r.1 :: rest.1, rest.2)

end RSE
