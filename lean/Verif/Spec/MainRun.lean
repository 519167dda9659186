import Verif.Model.MainRun

/-!
# From the options to the arguments (specification for C121)
-/

namespace RSE.Cmd

/-- the value is this number -/
inductive Denotes : Atom → ℚ → Prop
  | int (i : Int) : Denotes (.int i) i
  | float (q : ℚ) : Denotes (.float (.fin q)) q

/-- the option has these numbers as values -/
def Numbers (d : ArgDict PyFloat) (name : String) (l : List ℚ) : Prop :=
  (∃ a q, d.get name = .ok (.one a) ∧ Denotes a q ∧ l = [q]) ∨ ∃ as, d.get name = .ok (.list as) ∧ List.Forall₂ Denotes as l

/-- the value of the option is this text -/
def IsText (d : ArgDict PyFloat) (name text : String) : Prop := d.get name = .ok (.one (.str text.toList))

/-- all values of an argument -/
def _root_.RSE.Multi.values {α : Type} : Multi α → List α
  | .one x => [x]
  | .many l => l

def _root_.RSE.Order.name : Order → String
  | .random => "random"
  | .sequential => "sequential"
  | .simultaneous => "simultaneous"
  | .semisimultaneous => "semisimultaneous"

def _root_.RSE.StakeSource.name : StakeSource → String
  | .file => "file"
  | .pareto => "pareto"
  | .flat => "flat"
  | .disparity => "disparity"

/-- The arguments of the constructor are the values of the options. -/
structure Arrives (d : ArgDict PyFloat) (a : Args ℚ) : Prop where
  n : Numbers d "n" (a.n.values.map (fun x : Nat => (x : ℚ)))
  k : Numbers d "k" (a.k.values.map (fun x : Nat => (x : ℚ)))
  a0 : Numbers d "a0" a.a0.values
  relThr : Numbers d "relative_utility_threshold" a.relThr.values
  absThr : Numbers d "absolute_utility_threshold" a.absThr.values
  maxIter : Numbers d "max_iterations" (a.maxIter.values.map (fun x : Int => (x : ℚ)))
  extraFrac : Numbers d "extra_pool_cost_fraction" a.extraFrac.values
  order : ∃ o, a.order = .one o ∧ IsText d "agent_activation_order" o.name
  scheme : Numbers d "reward_scheme" [(a.scheme : ℚ)]
  weights : ∃ w, a.weights = some w ∧ Numbers d "agent_profile_distr" w
  inactive : Numbers d "inactive_stake_fraction" [a.inactive]
  known : d.get "inactive_stake_fraction_known" = .ok (.one (.bool a.known))
  costMin : Numbers d "cost_min" [a.costMin]
  costMax : Numbers d "cost_max" [a.costMax]
  source : IsText d "stake_distr_source" a.source.name
  metrics : ∃ l, a.metrics = some l ∧ (Numbers d "metrics" (l.map (fun x : Nat => (x : ℚ))) ∨ (d.get "metrics" = .ok (.one .none) ∧ l = [1, 2, 6, 9, 17, 18, 25]))
  conv : Numbers d "iterations_after_convergence" [(a.conv : ℚ)]

/-- the options that must have a value -/
def essential : List String :=
  ["n", "k", "a0", "relative_utility_threshold", "absolute_utility_threshold", "max_iterations", "extra_pool_cost_fraction", "agent_activation_order", "reward_scheme",
   "agent_profile_distr", "inactive_stake_fraction", "cost_min", "cost_max", "stake_distr_source", "iterations_after_convergence"]

/-- the values of a value -/
def atoms : Value → List Atom
  | .one a => [a]
  | .list l => l
  | .tuple l => l

/-- None of these options was given without a value, and no number is infinite or nan. -/
def Usable (d : ArgDict PyFloat) : Prop :=
  ∀ p ∈ essential, ∀ v, d.get p = .ok v → ∀ a ∈ atoms v, a ≠ .none ∧ ∀ x, a = .float x → ∃ q, x = .fin q

end RSE.Cmd
