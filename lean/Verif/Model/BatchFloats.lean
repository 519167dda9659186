import Verif.Model.BatchMain
import Verif.Model.MainFloats

/-!
# batch-run.py as a whole, with the numbers that Python computes with
-/

namespace RSE.Cmd

/-- batch-run.py:61-105 and `custom_batch_run` in binary64, as `batchExecute` -/
def batchExecuteFloats (R : Reader) (str : Value → Text) (cwd : Text) (D : Disk PyFloat) (ws : List Text) (entropy : Int)
    (order : List (Nat × Kw × List (String × Atom)) → List (Nat × Kw × List (String × Atom))) (draws : Nat → Draws B64) (solver : State B64 → B64) (t : Nat → Turns) (fuel : Nat) :
    Disk PyFloat × BatchEnding B64 :=
  batchExecuteIn roundedArgs R str cwd D ws entropy order draws solver t fuel

end RSE.Cmd
