import Verif.Py.Dict
import Mathlib.Data.List.Sort
import Mathlib.Data.List.Lex
import Mathlib.Data.Prod.Lex
import Mathlib.Order.Nat

/-!
# logic/helper.py: `calculate_ranks`
-/

namespace RSE

variable {F : Type} [LinearOrder F]

/-- The tuple `(ranking_dict[key],) + tuple(...)` (helper.py:233-237).  All tuples have the same length, so comparing them
lexicographically is comparing the values lexicographically and then `-key` (helper.py:232; 0 when `rank_ids` is off). -/
abbrev RankTuple (F : Type) := List F ×ₗ Int

/-- one entry of `final_ranking_dict` (helper.py:233-237) -/
def rankItem (d : Dict F) (ties : List (Dict F)) (rankIds : Bool) (key : Nat) : Py (Nat × RankTuple F) := do
  let values ← (d :: ties).mapM (fun e => e.getE key)
  return (key, toLex (values, if rankIds then -(key : Int) else 0))

/-- `calculate_ranks(ranking_dict, *tie_breaking_dicts, rank_ids)` (helper.py:219-242); `sorted(..., reverse=True)` is a stable
sort into non-increasing order -/
def calculateRanks (d : Dict F) (ties : List (Dict F)) (rankIds : Bool) : Py (Dict Nat) := do
  let items ← d.keys.mapM (rankItem d ties rankIds)
  let sorted := items.insertionSort (fun a b => b.2 ≤ a.2)
  return sorted.zipIdx.map (fun e => (e.1.1, e.2 + 1))

end RSE
