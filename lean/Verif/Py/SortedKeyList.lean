import Verif.Py.Basic

/-!
# `sortedcontainers.SortedList(key=...)` (a `SortedKeyList`)

The library stores, next to each value, the key computed when the value was added.  `add` inserts to the right of all
entries with a key `≤` the new one; `remove(v)`/`index(v)` recompute the key of `v`, go (by bisection) to the first cached key
`≥` it and scan while the cached key is equal, comparing values with `==` (identity for `Pool` objects); if the value is not met
`ValueError` is raised.  Bisection is replaced by a linear scan, which gives the same result on a sorted list
(sortedness of every ranking is an invariant proved in `Verif/Lemmas`).
-/

namespace RSE

/-- (cached key, value) pairs in list order. -/
abbrev SKL (K V : Type) := List (K × V)

namespace SKL

variable {K V : Type} [LinearOrder K]

/-- `l.add(v)` where `k` is the key of `v`. -/
def add (k : K) (v : V) : SKL K V → SKL K V
  | [] => [(k, v)]
  | (k', v') :: t => if k < k' then (k, v) :: (k', v') :: t else (k', v') :: add k v t

/-- `l.remove(v)` where `k` is the *current* key of `v`. -/
def remove [DecidableEq V] (k : K) (v : V) : SKL K V → Py (SKL K V)
  | [] => .error .value
  | (k', v') :: t =>
    if k < k' then .error .value
    else if k' = k ∧ v' = v then .ok t
    else (remove k v t).map ((k', v') :: ·)

/-- `l.index(v)` where `k` is the *current* key of `v`. -/
def index [DecidableEq V] (k : K) (v : V) : SKL K V → Py Nat
  | [] => .error .value
  | (k', v') :: t =>
    if k < k' then .error .value
    else if k' = k ∧ v' = v then .ok 0
    else (index k v t).map (· + 1)

/-- `list(l)` -/
def vals (l : SKL K V) : List V := l.map Prod.snd

/-- the keys are non-decreasing -/
def Sorted (l : SKL K V) : Prop := l.Pairwise (fun a b => a.1 ≤ b.1)

end SKL
end RSE
