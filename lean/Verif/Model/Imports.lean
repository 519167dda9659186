/-!
# The import statements of the modules

Python runs the top-level statements of a module when it is imported for the first time.  The module is put into `sys.modules` before they are run, so that a module that is being
imported can be seen half-finished by the modules it imports.  If a statement raises, the module is taken out of `sys.modules` again; modules that were completely imported in the meantime
stay, with whatever they have bound.

Modelled: the imports of modules of the project from each other and the definitions of the names that are imported by name.  All other top-level statements (imports of other packages,
definitions) are taken to succeed, and none of them uses a module of the project (main.py and batch-run.py only do so if they are run as scripts).  `import a.b as c` succeeds for a module that
is in `sys.modules`, finished or not (Python 3.7 or later; the Dockerfile uses 3.9).
-/

namespace RSE

/-- the modules of the project but for those of the charts, which import none of the others -/
inductive PyModule where
  | rewardSchemes | strategy | activations | helper | pool | stakeholder | profiles | reporters | sim
  | batchrunner | main | batchRun | runViz | testHelper | testReporters | testSim | testStakeholder
  deriving DecidableEq, Repr

/-- a top-level statement: `import m` (also `from m import *`), `from m import name`, or the definition of a name -/
inductive Stmt where
  | mod (m : PyModule)
  | name (m : PyModule) (x : String)
  | bind (x : String)
  deriving DecidableEq, Repr

open PyModule Stmt in
/-- the modelled statements of the modules, in their order -/
def PyModule.body : PyModule → List Stmt
  -- reward_schemes.py:1, 119
  | rewardSchemes => [bind "TOTAL_EPOCH_REWARDS_R", bind "RSS_MAPPING"]
  -- strategy.py:2
  | .strategy => [bind "Strategy"]
  -- activations.py:4
  | activations => [bind "SemiSimultaneousActivation"]
  -- helper.py:15-18 (`MAX_NUM_POOLS` in line 22 is commented out)
  | helper => [name profiles "PROFILE_MAPPING", name rewardSchemes "RSS_MAPPING", name reporters "REPORTER_IDS", name rewardSchemes "TOTAL_EPOCH_REWARDS_R"]
  -- pool.py:2, 5
  | pool => [mod helper, bind "Pool"]
  -- stakeholder.py:7-9, 12
  | stakeholder => [mod helper, name pool "Pool", name .strategy "Strategy", bind "Stakeholder"]
  -- stakeholder_profiles.py:1-2, 7, 177
  | profiles => [name stakeholder "Stakeholder", mod helper, bind "NonMyopicStakeholder", bind "PROFILE_MAPPING"]
  -- model_reporters.py:7, 385, 420
  | reporters => [mod helper, bind "ALL_MODEL_REPORTEERS", bind "REPORTER_IDS"]
  -- sim.py:13-17, 20
  | sim => [name activations "SemiSimultaneousActivation", mod helper, mod reporters, mod profiles, mod rewardSchemes, bind "Simulation"]
  -- custom_batchrunner.py:22, 24
  | batchrunner => [mod helper, bind "custom_batch_run"]
  -- main.py:1-2
  | main => [mod sim, mod helper]
  -- batch-run.py:5, 9-11
  | batchRun => [name batchrunner "custom_batch_run", mod sim, mod helper, name reporters "ALL_MODEL_REPORTEERS"]
  -- interactiveViz/runViz.py:5-6 (lines 9-11 import the charts)
  | runViz => [name sim "Simulation", name helper "MAX_NUM_POOLS"]
  -- tests/test_helper.py:4-7
  | testHelper => [mod helper, mod rewardSchemes, name pool "Pool"]
  -- tests/test_model_reporters.py:3-6
  | testReporters => [mod sim, name profiles "NonMyopicStakeholder", name pool "Pool", mod reporters]
  -- tests/test_sim.py:1-3
  | testSim => [name pool "Pool", name stakeholder "Stakeholder", name sim "Simulation"]
  -- tests/test_stakeholder.py:4-8
  | testStakeholder => [name sim "Simulation", name profiles "NonMyopicStakeholder", name .strategy "Strategy", mod helper, name pool "Pool"]

/-- the module that a statement imports -/
def Stmt.target : Stmt → Option PyModule
  | .mod m => some m
  | .name m _ => some m
  | .bind _ => none

/-- `sys.modules`: how many of its statements each module has run (`none`: it is not there); and the modules that have bound a module object which is not in `sys.modules` any more, because
importing it has failed -/
structure Interp where
  progress : PyModule → Option Nat
  torn : PyModule → Bool

/-- a new interpreter -/
def Interp.new : Interp := ⟨fun _ => none, fun _ => false⟩

def Interp.advance (s : Interp) (m : PyModule) (n : Nat) : Interp := { s with progress := fun x => if x = m then some n else s.progress x }

/-- the names that a module has bound by now: those of the statements it has run -/
def Interp.bound (s : Interp) (m : PyModule) : List String :=
  match s.progress m with
  | none => []
  | some n => (m.body.take n).filterMap (fun st => match st with
    | .mod _ => none
    | .name _ x => some x
    | .bind x => some x)

/-- whether a module has run an import of `m` -/
def Interp.holds (s : Interp) (x m : PyModule) : Bool :=
  match s.progress x with
  | none => false
  | some n => (x.body.take n).any (fun st => decide (st.target = some m))

/-- taking a module out of `sys.modules` after a failure; whoever has bound the module object keeps it.  The module that has failed is gone, and with it what it has bound. -/
def Interp.discard (s : Interp) (m : PyModule) : Interp :=
  { progress := fun x => if x = m then none else s.progress x
    torn := fun x => if x = m then false else s.torn x || s.holds x m }

inductive ImportOutcome where
  | done
  | importError
  /-- the bound on the depth of the recursion was too small -/
  | tooDeep
  deriving DecidableEq, Repr

/-- running the statements `l` of module `m`, of which `i` have been run; `imp` imports a module -/
def runBody (imp : Interp → PyModule → Interp × ImportOutcome) (m : PyModule) : Interp → Nat → List Stmt → Interp × ImportOutcome
  | s, _, [] => (s, .done)
  | s, i, .bind _ :: t => runBody imp m (s.advance m (i + 1)) (i + 1) t
  | s, i, .mod n :: t =>
    match imp s n with
    | (s, .done) => runBody imp m (s.advance m (i + 1)) (i + 1) t
    | (s, e) => (s, e)
  | s, i, .name n x :: t =>
    match imp s n with
    | (s, .done) => if (s.bound n).contains x then runBody imp m (s.advance m (i + 1)) (i + 1) t else (s, .importError)
    | (s, e) => (s, e)

/-- importing a module: it is looked up in `sys.modules`; if it is not there, its statements are run.  `depth` bounds the number of modules that are being imported at the same time. -/
def importModule : Nat → Interp → PyModule → Interp × ImportOutcome
  | 0, s, _ => (s, .tooDeep)
  | depth + 1, s, m =>
    match s.progress m with
    | some _ => (s, .done)
    | none =>
      match runBody (importModule depth) m (s.advance m 0) 0 m.body with
      | (s, .done) => (s, .done)
      | (s, e) => (s.discard m, e)

/-- a depth that is enough for the modules of the project (see `C117_never_too_deep`) -/
def importDepth : Nat := 17

/-- an import statement of a program -/
def Interp.import (s : Interp) (m : PyModule) : Interp × ImportOutcome := importModule importDepth s m

/-- several imports one after the other; the first exception ends the program -/
def Interp.importAll : Interp → List PyModule → Interp × ImportOutcome
  | s, [] => (s, .done)
  | s, m :: t =>
    match s.import m with
    | (s, .done) => Interp.importAll s t
    | (s, e) => (s, e)

/-- several imports one after the other, exceptions being caught and reported, as pytest does when it collects test files -/
def Interp.collect : Interp → List PyModule → Interp × List ImportOutcome
  | s, [] => (s, [])
  | s, m :: t =>
    let r := s.import m
    let rest := Interp.collect r.1 t
    (rest.1, r.2 :: rest.2)

end RSE
