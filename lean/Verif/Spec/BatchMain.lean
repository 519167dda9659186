import Verif.Model.BatchMain
import Verif.Spec.MainRun

/-!
# From the options of batch-run.py to the arguments of the runs (specification for C122)
-/

namespace RSE.Cmd

/-- the options that become parameters of the runs -/
def batchOptions : List String :=
  ["max_iterations", "n", "k", "a0", "inactive_stake_fraction", "inactive_stake_fraction_known", "pareto_param", "cost_min", "cost_max", "extra_pool_cost_fraction", "stake_distr_source",
   "reward_scheme", "relative_utility_threshold", "absolute_utility_threshold", "iterations_after_convergence"]

/-- One value is chosen for each option, from those given. -/
def Choice (d : ArgDict PyFloat) (c : List (String × Atom)) : Prop :=
  c.map Prod.fst = batchOptions ∧ ∀ e ∈ c, ∃ v, d.get e.1 = .ok v ∧ e.2 ∈ atoms v

/-- the value chosen for the option is this number -/
def Picks (c : List (String × Atom)) (p : String) (q : ℚ) : Prop := ∃ a, (p, a) ∈ c ∧ Denotes a q

/-- The arguments of the constructor are the values chosen; the other arguments have their defaults. -/
structure TakenFrom (c : List (String × Atom)) (a : Args ℚ) : Prop where
  n : ∃ x : Nat, a.n = .one x ∧ Picks c "n" x
  k : ∃ x : Nat, a.k = .one x ∧ Picks c "k" x
  a0 : ∃ x, a.a0 = .one x ∧ Picks c "a0" x
  relThr : ∃ x, a.relThr = .one x ∧ Picks c "relative_utility_threshold" x
  absThr : ∃ x, a.absThr = .one x ∧ Picks c "absolute_utility_threshold" x
  maxIter : ∃ x : Int, a.maxIter = .one x ∧ Picks c "max_iterations" x
  extraFrac : ∃ x, a.extraFrac = .one x ∧ Picks c "extra_pool_cost_fraction" x
  order : a.order = .one .random
  scheme : Picks c "reward_scheme" a.scheme
  weights : a.weights = some [1, 0, 0]
  inactive : Picks c "inactive_stake_fraction" a.inactive
  known : ("inactive_stake_fraction_known", .bool a.known) ∈ c
  costMin : Picks c "cost_min" a.costMin
  costMax : Picks c "cost_max" a.costMax
  source : ∃ t, ("stake_distr_source", .str t) ∈ c ∧ t.map Char.toLower = a.source.name.toList
  metrics : a.metrics = some [1, 2, 6, 9, 17, 18, 25]
  conv : Picks c "iterations_after_convergence" a.conv

/-- All values given for the option are numbers of this kind. -/
def Every (d : ArgDict PyFloat) (p : String) (P : ℚ → Prop) : Prop := ∀ v, d.get p = .ok v → ∀ a ∈ atoms v, ∃ q, Denotes a q ∧ P q

/-- What batch-run.py does not check, but the runs need. -/
structure Suited (d : ArgDict PyFloat) : Prop where
  n : Every d "n" (1 ≤ ·)
  k : Every d "k" (1 ≤ ·)
  a0 : Every d "a0" (0 ≤ ·)
  relThr : Every d "relative_utility_threshold" (0 ≤ ·)
  absThr : Every d "absolute_utility_threshold" (0 ≤ ·)
  maxIter : Every d "max_iterations" (1 ≤ ·)
  extraFrac : Every d "extra_pool_cost_fraction" (0 ≤ ·)
  scheme : Every d "reward_scheme" (· ≠ 3)
  inactive : Every d "inactive_stake_fraction" (fun q => 0 ≤ q ∧ q < 1)
  costMin : Every d "cost_min" (0 ≤ ·)
  costs : Every d "cost_max" (fun q => Every d "cost_min" (· ≤ q))
  pareto : Every d "pareto_param" (0 < ·)
  seed : ∀ i, d.get "seed" = .ok (.one (.int i)) → 0 ≤ i
  source : ∃ t, d.get "stake_distr_source" = .ok (.one (.str t)) ∧ t.map Char.toLower ∈ ["file", "pareto", "flat", "disparity"].map String.toList
  disparity : ∀ t, d.get "stake_distr_source" = .ok (.one (.str t)) → t.map Char.toLower = "disparity".toList → Every d "n" (3 < ·)

/-- The random numbers are within their ranges, and if stakes are to be read from a file then it has some. -/
structure RunDraws (d : ArgDict PyFloat) (draws : Draws ℚ) : Prop where
  pareto : ∀ i, 0 ≤ draws.pareto i
  cost : ∀ i, 0 ≤ draws.cost i ∧ draws.cost i < 1
  profile : ∀ i, 0 ≤ draws.profile i ∧ draws.profile i < 1
  file : ∀ t, d.get "stake_distr_source" = .ok (.one (.str t)) → t.map Char.toLower = "file".toList → draws.file ≠ [] ∧ ∀ x ∈ draws.file, 0 < x

end RSE.Cmd
