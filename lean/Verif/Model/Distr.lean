import Verif.Model.Reporters
import Verif.Py.Binary64
import Mathlib.Algebra.Order.Floor.Semiring
import Mathlib.Algebra.Order.Field.Basic
import Mathlib.Data.Rat.Floor

/-!
# logic/helper.py: stake and cost distributions; the choice of the reward scheme and of `k` in the constructor

Random draws are arguments (oracles): nothing is assumed about them unless a theorem says so.
-/

namespace RSE

variable {F : Type} [LinearOrder F] [Zero F] [One F] [Add F] [Sub F] [Mul F] [Div F] [Neg F] [NatCast F] [FSum F]

/-- `generate_stake_distr_flat` (helper.py:102-104) -/
def stakesFlat (n : Nat) : List F :=
  let x : F := if n > 0 then 1 / (n : F) else 0
  (List.range n).map (fun _ => x)

/-- `n - c` as a number, for natural numbers (it may be negative) -/
def natDiff (n c : Nat) : F := (n : F) - (c : F)

/-- `generate_stake_distr_disparity(n, x=0.3, c=3)` (helper.py:53-60); `range(n - c)` is empty for `n ≤ c` -/
def stakesDisparity (n : Nat) (x : F) (c : Nat) : Py (List F) := do
  let high ← pyDiv x (c : F)
  let low ← pyDiv (1 - x) (natDiff n c)
  return (List.range c).map (fun _ => high) ++ (List.range (n - c)).map (fun _ => low)

/-- `generate_cost_distr_disparity(n, low, high, c=10)` (helper.py:63-69) -/
def costsDisparity (n : Nat) (low high : F) (c : Nat) : Py (List F) :=
  if high < low then .error .value
  else .ok ((List.range c).map (fun _ => high) ++ (List.range (n - c)).map (fun _ => low))

/-- `generate_cost_distr_unfrm` (helper.py:107-120): `u i` is the i-th draw of the generator from `[0, 1)`; numpy computes
`low + (high - low) * u` -/
def costsUniform (n : Nat) (low high : F) (u : Nat → F) : Py (List F) :=
  if high < low then .error .value else .ok ((List.range n).map (fun i => low + (high - low) * u i))

/-- `generate_cost_distr_nrm` (helper.py:146-154): `z i` is the i-th draw from the standard normal distribution truncated to `[low, high]`; scipy returns
`z * stddev + mean` (it truncates before scaling and shifting) and raises `ValueError` unless `low < high` and `0 ≤ stddev` -/
def costsNormal (n : Nat) (low high mean stddev : F) (z : Nat → F) : Py (List F) :=
  if high < low then .error .value
  else if ¬ (low < high ∧ 0 ≤ stddev) then .error .value
  else .ok ((List.range n).map (fun i => z i * stddev + mean))

/-- `generate_cost_distr_bands` (helper.py:123-129): `bands` uniform draws, then for each agent the band with index `pick i`
(`rng.choice` raises `ValueError` if there are no bands but agents) -/
def costsBands (n : Nat) (low high : F) (bands : Nat) (u : Nat → F) (pick : Nat → Nat) : Py (List F) :=
  if high < low then .error .value
  else if bands = 0 ∧ n ≠ 0 then .error .value
  else .ok ((List.range n).map (fun i => low + (high - low) * u (pick i % bands)))

/-- `generate_cost_distr_bands_manual` (helper.py:132-143): the draws of lines 136-138 are discarded, but line 137 raises `ValueError` for a
negative number of draws (`num_agents < 3`) or for agents without bands -/
def costsBandsManual (n : Nat) (low high : F) (bands : Nat) : Py (List F) :=
  if high < low then .error .value
  else if n < 3 then .error .value
  else if bands = 0 ∧ n ≠ 3 then .error .value
  else .ok ((List.range n).map (fun i => if i < 5 then low else high))

/-- the largest entry of a list, as Python's `max` (raises `ValueError` for the empty list) -/
def maxOf : List F → Py F
  | [] => .error .value
  | x :: t => .ok (t.foldl max x)

/-- `truncate_pareto` (helper.py:90-99): `draw i` is the i-th new value `(rng.pareto(a) + 1) * m`.  `fuel` bounds the number of iterations of
`while 1`; running out of it is reported as `diverge`. -/
def truncatePareto (draw : Nat → F) (factor : F) : Nat → Nat → List F → Py (List F)
  | 0, _, _ => .error .diverge
  | fuel + 1, i, sample => do
    let m ← maxOf sample
    let avg ← pyDiv (sample.foldl (· + ·) 0) factor
    if m > avg then truncatePareto draw factor fuel (i + 1) (sample.erase m ++ [draw i])
    else return sample

/-- `generate_stake_distr_pareto` (helper.py:72-87): `z i` is the i-th draw `rng.pareto(a)`; the simulation uses the default
`truncation_factor = -1` (sim.py:153-154) -/
def stakesPareto (n : Nat) (factor : F) (z : Nat → F) (fuel : Nat) : Py (List F) :=
  let sample := (List.range n).map (fun i => (z i + 1) * 1)
  if factor > 0 then truncatePareto (fun i => (z (n + i) + 1) * 1) factor fuel 0 sample else .ok sample

/-! ### The reward scheme -/

/-- number of parameters (without `self`) of the constructors in `RSS_MAPPING` (reward_schemes.py:42-43, 56-57, 68-69, 79-80, 106-107,
119-125) -/
def schemeArity : Nat → Option Nat
  | 0 => some 2
  | 1 => some 2
  | 2 => some 2
  | 3 => some 4
  | 4 => some 2
  | _ => none

/-- `rss.RSS_MAPPING[i](-1, -1)` (sim.py:69): which class is instantiated; `KeyError` for other numbers, `TypeError` if the number of arguments
is wrong -/
def makeScheme (i : Nat) : Py Nat :=
  match schemeArity i with
  | none => .error .key
  | some m => if m = 2 then .ok i else .error .type

/-- `int(x)` of a non-negative number -/
class PyInt (F : Type) where
  trunc : F → Nat

/-- exact numbers -/
instance (priority := 50) {K : Type} [Field K] [LinearOrder K] [IsStrictOrderedRing K] [FloorSemiring K] : PyInt K := ⟨fun x => ⌊x⌋₊⟩

@[simp] theorem trunc_eq {K : Type} [Field K] [LinearOrder K] [IsStrictOrderedRing K] [FloorSemiring K] (x : K) : PyInt.trunc x = ⌊x⌋₊ := rfl

/-- floats -/
instance : PyInt B64 := ⟨fun x => ⌊x.1⌋.toNat⟩

/-- the `k` setter (reward_schemes.py:20-26) for any non-negative number: `int` truncates -/
def RS.setKValue [PyInt F] (rs : RS F) (x : F) : Py (RS F) :=
  if x = 0 then .error .value else .ok { rs with k := PyInt.trunc x, beta := 1 / x }

/-- sim.py:91-94: the system knows the inactive fraction `f` and inflates `k` -/
def RS.inflate [PyInt F] (rs : RS F) (f : F) : Py (RS F) := do
  let x ← pyDiv (rs.k : F) (1 - f)
  rs.setKValue x

/-- `round(x, 12)` -/
def round12 (x : ℚ) : ℚ := (roundHalfEven (x * 10 ^ 12) : ℚ) / 10 ^ 12

/-- `Simulation.revise_beliefs` (sim.py:396-409), the effect on the reward scheme; `active` is the currently delegated stake (≥ 0).  The method
is never called. -/
def RS.revise (rs : RS ℚ) (active : ℚ) : Py (RS ℚ) := do
  let x ← pyDiv active rs.beta
  rs.setK ⌈round12 x⌉.toNat

end RSE
