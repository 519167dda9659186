import Verif.Py.Basic
import Mathlib.Algebra.Order.Field.Rat

/-!
# Command-line validators (logic/helper.py:497-529) and the use of the seed (logic/sim.py:43-46, 148-166)
-/

namespace RSE

/-- what Python's `float(text)` can return: every IEEE double is a rational number, an infinity or not a number (the two zeros are not told
apart, no comparison does) -/
inductive PyFloat where
  | nan
  | negInf
  | fin (q : ℚ)
  | posInf
  deriving DecidableEq

/-- Python's `x < q` for a number `q` -/
def PyFloat.lt : PyFloat → ℚ → Bool
  | .nan, _ => false
  | .negInf, _ => true
  | .fin p, q => decide (p < q)
  | .posInf, _ => false

/-- Python's `x <= q` -/
def PyFloat.le : PyFloat → ℚ → Bool
  | .nan, _ => false
  | .negInf, _ => true
  | .fin p, q => decide (p ≤ q)
  | .posInf, _ => false

/-- Python's `x > q` -/
def PyFloat.gt : PyFloat → ℚ → Bool
  | .nan, _ => false
  | .negInf, _ => false
  | .fin p, q => decide (q < p)
  | .posInf, _ => true

/-- `positive_int` (helper.py:497-501); the argument is what `int(value)` gave, `none` if that raised `ValueError`.  An `ArgumentTypeError` and a
`ValueError` are the same for argparse: the value is rejected. -/
def positiveInt (v : Option Int) : Option Int := v.bind (fun i => if i ≤ 0 then none else some i)

/-- `non_negative_int` (helper.py:504-508) -/
def nonNegativeInt (v : Option Int) : Option Int := v.bind (fun i => if i < 0 then none else some i)

/-- `positive_float` (helper.py:511-515) -/
def positiveFloat (v : Option PyFloat) : Option PyFloat := v.bind (fun x => if x.le 0 then none else some x)

/-- `non_negative_float` (helper.py:518-522) -/
def nonNegativeFloat (v : Option PyFloat) : Option PyFloat := v.bind (fun x => if x.lt 0 then none else some x)

/-- `fraction` (helper.py:525-529) -/
def fraction (v : Option PyFloat) : Option PyFloat := v.bind (fun x => if x.lt 0 || x.gt 1 then none else some x)

/-- how a random number generator is seeded -/
inductive Stream where
  | seeded (n : Nat)
  | entropy
  deriving DecidableEq

/-- the stake distributions (sim.py:149-160) -/
inductive StakeSource where
  | file | pareto | flat | disparity
  deriving DecidableEq

/-- what decides about seeds: the keyword argument of the constructor, the seed in args.json if the arguments are read from there, the number drawn by
`random.randint` if there is no seed, and the stake distribution -/
structure SeedInput where
  kw : Option Nat
  file : Option (Option Nat)
  drawn : Nat
  source : StakeSource
  deriving DecidableEq

/-- the generators of a simulation, and the seed that is recorded in the description of the initial state -/
structure Streams where
  /-- stakes; `none` if they are not random -/
  stakes : Option Stream
  costs : Stream
  /-- `self.random`: the agents' profiles (sim.py:165) and the order of activation (mesa's schedulers use the model's generator) -/
  agents : Stream
  recorded : Nat
  deriving DecidableEq

/-- The constructor (sim.py:28-46, 115-117, 129, 148-166).  `self.random` is created by mesa's `Model.__new__` (mesa 1.0.0, model.py), which Python calls with the
constructor's own arguments before `__init__`: it uses the keyword argument `seed`, and `super().__init__(seed=seed)` does not change it.
`read_stake_distr_from_file` is called without a seed and uses 42 (helper.py:26). -/
def SeedInput.streams (i : SeedInput) : Streams :=
  let seed := ((match i.file with
    | some s => s
    | none => i.kw).getD i.drawn)
  { stakes := (match i.source with
      | .file => some (.seeded 42)
      | .pareto => some (.seeded seed)
      | .flat => none
      | .disparity => none),
    costs := .seeded seed,
    agents := (match i.kw with
      | some s => .seeded s
      | none => .entropy),
    recorded := seed }

end RSE
