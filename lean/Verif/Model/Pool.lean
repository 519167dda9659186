import Verif.Model.Helper
import Verif.Py.Dict
import Mathlib.Data.Prod.Lex
import Mathlib.Order.Nat

/-!
# logic/pool.py and the two pool comparison keys
-/

namespace RSE

/-- Object references (Python object identity). -/
scoped notation "Ref" => Nat

/-- A `Pool` object (pool.py:5-15). -/
structure Pool (F : Type) where
  id : Nat
  cost : F
  pledge : F
  stake : F
  owner : Nat
  isPrivate : Bool
  delegators : Dict F
  pp : F
  margin : F
  des : F

variable {F : Type} [LinearOrder F] [Zero F] [One F] [Add F] [Sub F] [Mul F] [Div F] [Neg F] [NatCast F]

namespace Pool

/-- `set_profit` (pool.py:26-28) -/
def setProfit (p : Pool F) (rs : RS F) : Pool F := { p with pp := potentialProfit rs p.pledge p.cost }

/-- `set_desirability` (pool.py:30-31) -/
def setDesirability (p : Pool F) : Pool F := { p with des := desirability p.margin p.pp }

/-- the `margin` setter (pool.py:21-25; the getter, 18-19, is the field) -/
def setMargin (p : Pool F) (m : F) : Pool F := setDesirability { p with margin := m }

/-- `Pool.__init__` (pool.py:5-15) with the default `margin=-1`. -/
def create (id : Nat) (cost pledge : F) (owner : Nat) (rs : RS F) (isPrivate : Bool) : Pool F :=
  let p : Pool F :=
    { id := id, cost := cost, pledge := pledge, stake := pledge, owner := owner, isPrivate := isPrivate,
      delegators := [], pp := 0, margin := 0, des := 0 }
  (p.setProfit rs).setMargin (-1)

/-- `update_delegation` (pool.py:34-40) -/
def updateDelegation (p : Pool F) (new : F) (delegator : Nat) : Pool F :=
  let stake₁ := match p.delegators.get? delegator with
    | some old => p.stake - old
    | none => p.stake
  let ds := p.delegators.set delegator new
  { p with stake := stake₁ + new, delegators := if new < minUnit then ds.erase delegator else ds }

end Pool

/-- keys of `pool_rankings`: `(-desirability, -potential_profit, id)`, compared lexicographically -/
abbrev Key (F : Type) := F ×ₗ F ×ₗ Nat

/-- keys of `pool_rankings_myopic`: `(-myopic_desirability, id)`.  The place-holder `None` has the *triple* `(0,0,0)` there;
as a tuple it compares with a pair `(d, id)` like the pair `(0, 0)` does, unless `d = 0` and `id = 0`, and pool ids start at 1. -/
abbrev KeyM (F : Type) := F ×ₗ Nat

/-- `pool_comparison_key` (helper.py:487-494) on pools -/
def poolKey (p : Pool F) : Key F := toLex (-p.des, toLex (-p.pp, p.id))

/-- `pool_comparison_key` on `None` -/
def noneKey : Key F := toLex ((0 : F), toLex ((0 : F), 0))

/-- the myopic desirability of a pool (sim.py:450-453) -/
def myopicDes (rs : RS F) (p : Pool F) : F := desirability p.margin (currentProfit rs p.stake p.pledge p.cost)

/-- `pool_comparison_key_myopic` (sim.py:445-454) on pools -/
def poolKeyM (rs : RS F) (p : Pool F) : KeyM F := toLex (-(myopicDes rs p), p.id)

/-- `pool_comparison_key_myopic` on `None` -/
def noneKeyM : KeyM F := toLex ((0 : F), 0)

end RSE
