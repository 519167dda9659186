import Verif.Model.Pool

/-!
# logic/helper.py: `find_target_pool`
-/

namespace RSE

variable {F : Type} [LinearOrder F] [Zero F] [One F] [Add F] [Sub F] [Mul F] [Div F] [Neg F] [NatCast F] [FSum F]

/-- the loop of `find_target_pool` (helper.py:475-484): `top` is `top_pools` (in order), `covered` is `covered_stake`; returns `top_pools`.
`None` entries of the ranking are `none`. -/
def findTargetLoop (rs : RS F) (target : F) : List (Option (Pool F)) → List (Option (Pool F)) → F → List (Option (Pool F))
  | [], top, _ => top
  | p :: rest, top, covered =>
    if covered ≥ target then top
    else match p with
      | none => top ++ [none]
      | some q =>
        let top' := top ++ [some q]
        -- no entry of `top'` is `None` here, so `pool.pledge` exists for all of them
        findTargetLoop rs target rest top' (FSum.fsum (top'.filterMap (fun o => o.map (fun p => rs.sat p.pledge))))

/-- `find_target_pool` (helper.py:465-484): the outer `none` is the result for an empty `top_pools`, the inner one a place-holder; Python does
not distinguish them -/
def findTarget (rs : RS F) (target : F) (ranked : List (Option (Pool F))) : Option (Pool F) :=
  ((findTargetLoop rs target ranked [] 0).getLast?).join

end RSE
