import Verif.Model.MainRun
import Verif.Py.Binary64

/-!
# main.py as a whole, with the numbers that Python computes with

As `Model/MainRun.lean`, but the simulation computes in binary64.  The values of options are the numbers that are written there, rounded to binary64 (`float`); whole numbers are converted
exactly up to `2^53`.
-/

namespace RSE.Cmd

def _root_.RSE.Multi.map {α β : Type} (f : α → β) : Multi α → Multi β
  | .one x => .one (f x)
  | .many l => .many (l.map f)

/-- the same arguments as binary64 numbers -/
def roundedArgs (a : Args ℚ) : Args B64 :=
  { n := a.n, k := a.k, a0 := a.a0.map B64.of, relThr := a.relThr.map B64.of, absThr := a.absThr.map B64.of, maxIter := a.maxIter, extraFrac := a.extraFrac.map B64.of,
    order := a.order, scheme := a.scheme, weights := a.weights.map (fun l => l.map B64.of), inactive := B64.of a.inactive, known := a.known, costMin := B64.of a.costMin,
    costMax := B64.of a.costMax, source := a.source, metrics := a.metrics, conv := a.conv }

/-- main.py:10-43 in binary64: `none` if the constructor is not reached (`Model/MainRun.lean` says why) -/
def executeFloats (R : Reader) (str : Value → Text) (cwd : Text) (D : Disk PyFloat) (ws : List Text) (entropy : Int) (draws : Draws B64) (solver : State B64 → B64) (t : Turns) (fuel : Nat) :
    Disk PyFloat × Option (Py (Loop (Nat × Nat × State B64) (List (MetricValue B64)))) :=
  match mainStart R str cwd D ws entropy with
  | .error _ => (D, none)
  | .ok (D, .error _) => (D, none)
  | .ok (D, .ok r) =>
    match argsOf r.args with
    | none => (D, none)
    | some a => (D, some (simulate (roundedArgs a) draws solver t fuel))

end RSE.Cmd
