# Design

Target: Rewards-Sharing-Simulation-Engine (Python, `/repo`), a Mesa agent-based simulation of stake pools.
Deliverable: a Lean 4 model of the simulation logic (`lean/Verif/Model`), independent specifications
(`lean/Verif/Spec`), lemmas (`lean/Verif/Lemmas`) and one theorem file per group of properties (`lean/Verif/Props`).
The theorems of property `Cxx` are called `Cxx_...`.  `MANIFEST.json` lists them with their status;
`lean/Verif/Audit.lean` prints the axioms of each.  (`tools/` regenerates the list of properties, the import file, the audit
file and the manifest; nothing in it is trusted.)

## 1. How the code is modelled

* **Numbers.** The model is generic in the number type `F`.  Model definitions only assume the *operations*
  (`+ - * / neg`, casts from `Nat`, a linear order, a sum of lists), no laws.  Theorems come in two kinds:
  * *structural* theorems (no dangling ids, rankings intact, ids unique, delegations symmetric, ...) are proved for **every**
    `F` with a linear order and arbitrary operations - so they do not depend on rounding: they hold for IEEE doubles as
    long as no NaN occurs (and identifying -0.0 with 0.0);
  * *arithmetic* theorems are proved for every linearly ordered field (exact arithmetic, e.g. `ℚ` and `ℝ`).
    For these, see C96 for what is left of them in floating point;
  * *bounds that survive rounding* (margins, pledges, delegations, rewards) are proved for every `F` with the laws of
    `RoundedArith` (`Spec/Rounded.lean`: monotone operations, exact units), which exact arithmetic and binary64 have.
    Binary64 is `B64` (`Py/Binary64.lean`): rationals with 53 bits, rounding to nearest even after each exact operation
    (proved in C96), subnormal numbers included; *not* modelled: overflow, infinities, NaN, the sign of zero.
    `math.fsum` is the exact sum rounded once; the built-in `sum` adds from left to right, as in Python 3.9, for which
    the code is written (docs/setup.md:4; Python >= 3.12 compensates rounding errors); the runs of C96 use it for the empty list only,
    and the witness of C109 is a list whose total is the same either way;
    the metrics that use `np.sum` or `sum` are modelled with the correctly rounded sum (in C125 only whether they raise matters); the constructor
    is defined for any number type (`PyInt` is Python's `int()` on it), whole numbers are converted to floats exactly (they are, up to 2^53);
  * counterexamples are computed in `ℚ` or `B64` by the kernel (`decide +kernel`).
* **Constants.** `MIN_STAKE_UNIT = 2.2e-17` is `22/10^18`, `boost = 1e-6` is `1/10^6`.
* **Exceptions** are values: `Py α = Except Err α`, with `KeyError, ValueError, IndexError, AttributeError,
  ZeroDivisionError, TypeError` (and `diverge` for a loop that does not end) as constructors of `Err`.  Every dictionary
  access, `SortedList.remove/index`, list index and (data dependent) division of the modelled functions goes through a
  function that can fail.
* **dict** is an insertion-ordered association list; **SortedList(key=...)** is a list of (cached key, value) pairs, with
  `remove`/`index` searching by the *current* key of the value as in sortedcontainers (binary search is replaced by a linear
  scan with the same result on sorted lists; sortedness is proved).
* **Object identity.** Pools live in a heap indexed by references; `model.pools`, `strategy.owned_pools` and both rankings
  hold references, `deepcopy` allocates.  (`Strategy` objects and their dicts are never shared between holders, so
  they are plain values.)
* **Nondeterminism**: iteration order of Python sets, order of `RandomActivation`, `random.sample`, and the random initial
  data are universally quantified (oracles constrained to be permutations / sub-samples).
* **Reachability** (`Spec/Sim.lean`): `Reachable c s` says that `s` arises from a constructed simulation by any number of
  events (agent steps and, for the simultaneous schedulers, agent advances, phase changes, ends of rounds).  `Reachable` is
  the sequential / random activation, which is what the invariants are about; the other two schedulers are handled in
  `Props/Simultaneous.lean`, where most of the invariants are refuted.
* `while` loops become recursion with explicit fuel where needed, together with a theorem that the fuel suffices.
* **Files** (`Model/Files.lean`): a file is its text or missing; a process can be killed between any two system calls, and
  two processes interleave at system-call granularity.

## 2. What is modelled, file by file

| file in /repo | modelled in | not modelled |
|---|---|---|
| `logic/reward_schemes.py` | `Model/Rewards` (RSS base class, Cardano, Simplified, Flat, CIP-50), `Model/Curve` (CIP-7, over `ℝ`), `Model/Distr` (RSS_MAPPING) | - |
| `logic/pool.py` | `Model/Pool` | - |
| `logic/strategy.py` | `Model/State` | - |
| `logic/stakeholder.py`, `logic/stakeholder_profiles.py` | `Model/Stakeholder` (planning), `Model/Execute` (executing) | colours |
| `logic/activations.py` | `Model/Sim` | - |
| `logic/sim.py` | `Model/Construct` (constructor from arguments to first state, whole runs), `Model/Sim` (phases, rounds), `Model/Init` (stakes, `initState`), `Model/Loop` (step, run_model, has_converged), `Model/Order` (changes of the activation order), `Model/Export` (contents of the files written at the beginning and at the end), `Model/Graphs` (what is drawn in the graphs), `Model/Files` (directories), `Model/ArgsFile` (arguments, args.json, output directory), `Model/Cli` (seeds) | pickling, formatting of the files, looks of the graphs |
| `logic/helper.py` | `Model/Helper` (rewards, profit, margins, pledge, costs), `Model/Ranks`, `Model/Target`, `Model/Distr` (initial distributions), `Model/StakeFile` (the file with stakes), `Model/Cache` (lru_cache), `Model/Files` (sequence.dat, csv, directories), `Model/ArgsFile` (`read_args_from_file`, `export_json_file`), `Model/Cli` (validators), `Model/CommandLine` (`add_script_arguments`), `Model/Construct` (`read_stake_distr_from_file`), `Model/Graphs` (`plot_line`, `plot_stack_area_chart`), `Model/BatchPlots` (`plot_aggregate_data`, `plot_aggregate_data_heatmap`) | `sci_notation` (never called), the texts that argparse prints |
| `logic/model_reporters.py` | `Model/Reporters`, `Model/Table` (names, ids, rows of the data collector), `Model/MinPledge` (`get_min_aggregate_pledge` for a given solver) | the mixed-integer solver (an oracle; C92 assumes that it is exact) |
| `custom_batchrunner.py` | `Model/Batch`, `Model/BatchRun` (whole batch, runs arriving in any order), `Model/Loop` | multiprocessing pool (runs are independent apart from files, see `Model/Files`), progress bar |
| `main.py` | `Model/CommandLine` (options, start), `Model/Construct` (`simulate`), `Model/MainRun` (the whole execution) | profiling; what the constructor does with `None`, infinite and nan arguments |
| `batch-run.py` | `Model/CommandLine` (options, runs), `Model/BatchMain` (the whole execution up to the plots), `Model/BatchFloats` (the same on floats), `Model/BatchPlots` (parameters, plots) | pandas, looks of the plots |
| `interactiveViz/` | `Model/Viz` (message handler, data of the charts) | web pages, scripts, Mesa's `UserSettableParameter` and server (runViz.py uses Mesa's own server, see `Model/Viz`) |
| `tests/` | `Model/Tests` | tests of powers of floats, of the solver and of files; the Nakamoto tests; what follows the first failure |
| import statements of all modules but those of the charts | `Model/Imports` | other packages, other top-level statements |

## 3. Trusted base

* The Lean 4.33.0 kernel and Mathlib's definitions (`ℝ`, `Real.rpow`, fields, orders, lists, permutations).
* Axioms: at most `propext`, `Classical.choice`, `Quot.sound` per theorem (printed by `lean/Verif/Audit.lean`).
  There is no axiom of our own, no `sorry`, no `native_decide`.
* The reading of the Python code into `Verif/Model`: each definition cites file and lines.  The code was never run.
  The project's own tests are a check of this reading (C119): evaluated in binary64, the model meets the expectations of every modelled test,
  to the last bit where the test compares with `==`, but for those that the authors mark "review failing test" or "update test", `test_revise_beliefs` (`assert False`)
  and a draw of the flat test; there the model fails as the code would.
* Assumptions about libraries, none of which was checked against the library's source:
  * Mesa 1.0.0: schedulers step the agents in the order of insertion / of a shuffled list; `Model.__new__` seeds
    `self.random` from the keyword argument `seed` only;
  * argparse of Python 3.9: how words are told apart, matched with options (in full or abbreviated) and converted, as written in `Model/CommandLine`;
  * sortedcontainers: `add`, `remove`, `index`, `pop` as specified for `SortedKeyList`;
  * `functools.lru_cache` compares arguments with `==` and `hash`;
  * csv appends are buffered and reach the file in one `O_APPEND` write (texts below the 8192 bytes of the buffer);
  * numpy / scipy / `random` generators return arbitrary values in the documented range; numpy's `default_rng` rejects negative seeds, and its `pareto` shapes that are not positive.

## 4. Property by property

| id | model | how proved |
|----|-------|-----------|
| C01-C03 | `Rewards` | `Props/Rewards`: algebra over ordered fields, case split on the `min`s; exact condition and witness for the false half of C03 |
| C04 | `Helper` | `Props/Split`: induction over the list of delegators |
| C05, C20, C22-C24, C51, C65, C68 | whole state machine | `Props/Accounting`: inductive invariants over ordered fields; double counting over agents and pools |
| C06 | `Curve` | `Props/Curve`: algebra over `ℝ`; witness with perfect cubes |
| C07, C08, C11-C13 | `Helper` | `Props/Margins`: algebra, induction |
| C09, C10 | `Stakeholder`, `Helper` | `Props/TopK`: positions in filtered sorted lists; witness for n = 2 |
| C14, C16 | `Ranks`, `Stakeholder` | `Props/Ranking`: sorting lemmas |
| C15, C19, C21, C26, C28, C39, C64, C67 | whole state machine, any `F` | `Props/Structure`: invariants `Core`, `Inv`, `SeqInv` preserved by every primitive mutation |
| C17, C18 | `Stakeholder` | `Props/Delegation`: loop invariant of the greedy allocation |
| C31, C35 | `Stakeholder` | `Props/Planning`: case analysis; planning leaves the state equal up to unreachable heap cells |
| C32 | `Stakeholder` | `Props/Search`: recursion over the search interval |
| C25 | simultaneous schedulers | `Props/Simultaneous`: kernel-computed counterexamples; what remains true by induction |
| C27 | id sequence | `Props/Rerun`: counterexample; true when the sequence is not set below an id in use |
| C29, C66 | whole state machine | `Props/Crash`: all invariants plus error-freeness of every branch (program logic `Sat`) |
| C30 | phases | `Props/Phases`: counterexamples; `C30_causes` shows they are the only two kinds of failure |
| C33, C34, C36, C38 | `Loop` (over an abstract round) | `Props/Loop`: induction over rounds |
| C37 | `Loop` | `Props/BatchRow` |
| C40 | `Sim`, `Construct` | `Props/Rounds`, `Props/Orders`: permutation lemmas for all oracles |
| C41-C46, C69 | `Init`, `Distr` | `Props/Distr`: list induction, algebra, witnesses |
| C47, C49, C50, C53 | `Reporters` | `Props/Metrics` |
| C48 | `Reporters` | `Props/Gini`: equals the relative mean difference of the spec |
| C52, C54 | `Reporters` | `Props/Operators` |
| C55, C56, C71, C72 | `Batch` | `Props/Batch`: induction over the parameter grid |
| C57-C59 | `Files` | `Props/Files`: file-system model with crash points and interleavings |
| C60, C61 | `Cli` | `Props/Cli`: IEEE values as nan / ±inf / finite; dependency of the streams on seed and entropy |
| C62 | `Target` | `Props/Target`: induction over the list |
| C63 | `Cache` | `Props/Cache`: invariant over the call history |
| C70 | `Reporters` | `Props/Averages` |
| C73 | `Order` | `Props/Order`: invariant "no strategy differs" after the switch, induction over the further activations |
| C74 | `Table` | `Props/Table`: case analysis over the 30 metrics with the invariants of C47-C54 |
| C75, C76 | `Export` | `Props/Export`: invariants `Owned`, double counting; order statistics |
| C77 | `Construct` | `Props/Construct`, `Props/Rejects`: every stage of the constructor; the bisection of `random.choices` by induction |
| C78 | `Construct`, everything else | `Props/EndToEnd`: an invariant under which every part of a step succeeds (`Safe`, `Lemmas/Run`), instantiated with C29 / C30, C74, C75 |
| C79 | `Construct` | `Props/PhaseValues`: invariant over the steps of a run |
| C80 | whole state machine, `Loop` | `Props/Equilibrium`: bisimulation of the planning of an agent in two states that differ in unreachable heap cells, fresh references and the id sequence (`Lemmas/Twin`) |
| C81 | whole state machine | `Props/Derived`: invariant over ordered fields; the formulas of the specification are written out |
| C82 | `Graphs` | `Props/Graphs`: the type of a column depends on its name only; rows of a run from C36, pivots from C38 |
| C83 | `Viz` | `Props/Viz`: induction over messages and over the loop |
| C84 | whole state machine, `Loop`, `Construct` | `Props/NoConvergence`: a state that recurs up to names recurs for ever, by the bisimulation of `Lemmas/Rename`; the recurrence of the witness is computed by the kernel |
| C85 | whole state machine, `Loop`, `Construct` | `Props/Names`: bisimulation under renaming of ids and objects, function by function (`Lemmas/Rename`), lifted to the loop |
| C86 | `planMove`, utilities, `Loop` | `Props/Rational`: delegation is worth at least 0 (sums of maxima), thresholds, `C80` for the final state; witness of a loss in an equilibrium |
| C87 | whole state machine | `Props/Viable`: `C65` (shape of an operator's pools) and `C66` (potential profit is positive) give a condition on stake and cost; pigeonhole for the number of pools; induction for the case that nobody is viable |
| C88 | `Batch`, `BatchPlots` | `Props/BatchPlots`: `C55`/`C56` for the runs; a pair of values of the two variable parameters determines the run; pigeonhole for repeated values; file names are split at the last `-` |
| C89 | `Sim`, `Stakeholder` | `Props/Thresholds`, `Lemmas/Thr`: plans do not depend on thresholds up to the final comparison, whose threshold is monotone; up-to-date figures (C81) and unique ranking keys make the re-evaluation a no-op; then C80 |
| C90 | `Stakeholder` | `Props/Beliefs`: the ranking is a permutation of the open pools, so the pools before a pool in it are those that outrank it; the temporary ranking likewise; planning is calm (C19), so candidates are valued as in the state before it |
| C91 | `Reporters`, `Table` | `Props/MetricMeaning`: a table of 30 meanings; each is derived from the theorems of the single metrics (C47-C54, C70, C74) |
| C92 | `MinPledge` | `Props/MinPledge`: 0/1 points are sets of pools; pledges of an agent's pools add up to at most its stake (C14); C47 for the Nakamoto coefficient |
| C93 | `Stakeholder` | `Props/Planned`: the index in the filtered ranking is a count of better pools of others; C32 for the number of pools; margins are handed out in order by induction over the loops |
| C94 | `Stakeholder` | `Props/Placed`: closed form of the greedy loop by induction over the ranking; the pools before a pool in the ranking are the preferred ones |
| C95 | simultaneous rounds | `Props/SameView`: planning leaves no trace (Lemmas/Ready); runs from states that differ only in what is staged, new objects and ids are related (`Lemmas/Twin`); kernel-computed counterexample without the condition |
| C96 | `Py/Binary64`, whole state machine | `Props/Rounding`: rounding is to nearest even (`Lemmas/Nearest`); invariants over any arithmetic with monotone operations (`Spec/Rounded`, `Lemmas/Terms`, `Lemmas/Exact`); runs in binary64 computed by the kernel for the claims that fail |
| C97 | `Stakeholder.choose_pool_strategy` | `Props/BestCount`: the planned utility is a concave function of the number of pools as long as all of them compete, so a number without better neighbours (C93) is the best one; kernel-computed witness and run for the claim in general |
| C98 | `Execute`, `determine_pools_to_keep` | `Props/SetOrder`: the specification of an execution (`Lemmas/ExecSpec`) and the balance of pools (C20) determine the state up to the order of entries; kernel-computed runs with two orders, and with CPython's order and two first ids |
| C99 | `ArgsFile` | `Props/ArgsFile`: the dictionary that is read back equals the one that was written; case analysis of the start of the constructor.  Trusted: `json.load` gives back the scalars that `json.dump` wrote |
| C100 | `Sim` (`runBatch`, `roundSimultaneous`, `roundSemi`), `Stakeholder.executeStrategy` | `Props/Orderly`, `Lemmas/Books`: what an agent has staged still fits when its turn comes (invariant of the batch), by the same specification of `execute_strategy` that gives C21; contrapositive for the blame; kernel-computed conflict |
| C101 | the same, `planMove` | `Props/OrderlyRun`, `Lemmas/Profit`, `Lemmas/NoCrash`: the proofs of C66 and C29 with the condition that the books are straight whenever an agent plans (`Clean`) instead of sequential activation |
| C102 | `executeStrategy`, `runBatch` | `Props/Conflict`, `Lemmas/Spares`: an agent that carries out its strategy leaves alone the delegations of others and to others, except at pools it closes or makes private (lawless); the copy of the pool is followed through the batch |
| C103 | `Py/Binary64`, `Pool.updateDelegation`, state machine | `Props/Drift`, `Lemmas/Graded`, `Lemmas/Drift`: an invariant of every pool object whose bound grows with the number of events; sums and differences of binary64 numbers have a relative error even for tiny results, because all of them are multiples of the smallest number |
| C104 | the same, `greedy`, `pledgePerPool` | `Props/Commit`, `Lemmas/Lasting`, `Lemmas/Commit`: each plan is within the bound when it is made (error of every subtraction of the greedy loop, of the division and product for pledges), and plans only lose delegations afterwards; summed up over agents with the double count of `Lemmas/Count` |
| C105 | `RS.reward`, `operatorReward`, `delegatorReward`, `desirability`, profits | `Props/Accuracy`, `Lemmas/Accuracy`: forward error analysis; each operation adds a relative error `2^-53` and, for products and quotients, an absolute one `2^-1075` |
| C106 | `updatePool`, `removeDelegations`, whole state machine | `Props/PrivateFloats`, `Lemmas/PrivateFloats`: what becomes of the delegations to a pool that is private after an event; with the bound of `Lemmas/Drift` for a pool that is planned as private with a stake of at most its pledge; a run in binary64 computed by the kernel |
| C107 | `costEfficientCount`, whole state machine | `Props/CostEfficient`: the reward of a saturated pool grows with the pledge; with C87, an operator who is not counted gains by splitting; a run in which the metric is 0 and everybody operates |
| C108 | whole state machine | `Props/AgentNames`: `Lemmas/Alias` commutes planning, executing and phases with a permutation of the ids of agents; two alike agents of whom the first to move gets more pools |
| C109 | `initialStakes`, `normalizeStakes` | `Props/Normalising`, `Lemmas/Normal`: forward error analysis of two sums and the quotients; 1 minus a number near 1 is exact; five stakes and a run with them, computed by the kernel |
| C110 | `readStakes`, `stakesFromFile`, `stakesFile` | `Props/StakeFile`: texts as lists of characters, lines and fields; `float` is a parameter |
| C111 | phases, `marginNM`, `marginM`, `nonMyopicStake` | `Props/Placeholders`, `Lemmas/Others`: the entries an agent sees are counted with the ranking invariant; the bound is exact |
| C112 | `planMove`, `updateStrategy` | `Props/PublicInfo`, `Lemmas/Public`: planning commutes with removing everything about others from the state |
| C113 | whole state machine, loop | `Props/SolePools`: in states without delegations and with at most one pool per agent the specifications of plans (C90, C93, C94) can be evaluated; an invariant over the turns of a round |
| C114 | `customBatchRun` | `Props/BatchRun`: the runs in any order of arrival; rows of one run form a block; gathering raises iff a member raises |
| C115 | `RS.reward` | `Props/Parameters`: all four schemes reward a weighted mean of the stake and a pledge benefit with weights `1/(1+a0)` and `a0/(1+a0)`; comparison of the benefit with the stake |
| C116 | whole state machine, loop | `Props/Bystanders`: planning in the final state gives no new strategy (twins of `Lemmas/Twin`); then C90 and C94 |
| C117 | `Imports` | `Props/Imports`: the few states of an interpreter without the helper functions one by one (an import from each, evaluated by the kernel); with them, induction on the depth of the import graph; then induction over the sequence of imports |
| C118 | `Loop` | `Props/Limits`: invariant of the loop (`Lemmas/Loop`) extended by the limit in force |
| C119 | `Tests` | `Props/ProjectTests`: what does not depend on the draws is evaluated by the kernel; the state of the agents, the total stake and the orders of sets are eliminated by hand |
| C120 | `CommandLine` | `Props/CommandLine`, `Spec/CommandLine`, `Lemmas/CommandLine`: the parser accepts exactly the sequences of settings (induction on words one way, on settings the other); the rest follows from that and from the two tables |
| C121 | `MainRun`, `CommandLine`, `Construct` | `Props/MainRun`, `Spec/MainRun`: C120 gives the values of the options, C99 that they are the arguments; then C77 and C78 |
| C122 | `BatchMain`, `CommandLine`, `Batch`, `Construct`, `Loop` | `Props/BatchMain`, `Spec/BatchMain`: C120 gives the options, C55 and C56 the grid, C99 the directories, then C77, C78 and the loop of the batch runner (C37) |
| C123 | `Construct`, `Init`, `Distr` | `Props/Ratios`: the constructor uses the stakes only through their shares, which do not change; in binary64 sums of integers are exact and quotients correctly rounded |
| C124 | all of the simulation | `Props/CrashFloats`, `Lemmas/NoCrashFloats`: the drift of C103 stays below every pledge, so no stake is 0, also in the middle of a turn; profits are positive, so no pool ranks behind a placeholder |
| C125 | `Construct`, `Loop`, `Reporters`, all of the simulation | `Props/RunFloats`, `Lemmas/MetricsFloats`, `Lemmas/ConstructShape`: C124 for the moves; every reporter returns on states in which all pools have positive stakes and pledges; then the loop as in C78 |
| C126 | `Loop`, `Construct`, `Table` | `Props/Longer`, `Lemmas/Longer`: two loops are run side by side; either they are level, or the first has ended and the second only adds rows |
| C127 | `MainFloats`, `Construct`, `CommandLine` | `Props/MainFloats`, `Lemmas/StartFloats`: the constructor in binary64 with explicit error bounds, then C125 |
| C128 | `Stakeholder`, `Sim`, `Loop` | `Props/IdleSimultaneous`, `Lemmas/Kept`: agents that keep their strategy leave the state as it is once their delegations are recorded; after one idle round they are |
| C129 | `Stakeholder`, `Pool`, `Binary64`, `Loop` | `Props/IdleFloats`, `Lemmas/NoDrift` (taking a float away and adding it again), `Lemmas/Firm` (planning as taking out and putting back) |
| C130 | `BatchMain`, `BatchFloats`, `Binary64` | `Props/BatchFloats`: the proof of C122 for any kind of numbers (`run_starts`, `batch_ends`), with C127 for each run |
| C131 | `Loop`, `Reporters`, `Binary64` | `Props/ConvergedRow`: C128 and C129 for the last two rounds, `C37_metrics` for any kind of numbers |
| C132 | `Sim`, `Reporters`, `Construct` | `Props/PoolCount`: nobody loses (C86), utilities add up to rewards minus costs (C05), the pools of an operator are alike (C65) |
| C133 | `Drafts`, `Stakeholder`, `Sim` | `Props/DraftIds`: the loop of `find_operator_move` draws the ids in a row; for runs, induction over events |
| C134 | `Sim`, `Loop` | `Props/Monopoly`: only the operator can own a pool (C87), pools of an operator are alike (C65), what plans are worth (C90, C93, C94); an invariant of turns, then of rounds, then C34 for the run |
| C135 | `AxisLabels` | `Props/AxisLabels`: the exponent is the logarithm (`Int.log`), rounding is monotone and off by at most a half (C54) |
| C136 | `Sim`, `Stakeholder` | `Props/SoleTogether`: C113 with batches; an invariant of the states within a batch (nobody delegates or plans to, only agents without pools have plans), kept by every `step` and `advance` |
| C137 | `Sim`, `Stakeholder` | `Props/MonopolyTogether`: C134 with batches; an invariant of the states within a batch (the operator plans only while there is no pool, the others only to delegate to the one there is), kept by every `step` and `advance`; then C34 for the run |
| C138 | `Reporters`, `Sim` | `Props/SoleMetrics`: the owners of the pools of C113 and C136 are the agents that would operate one, without repetitions; then C47, C48, C50, C52, C70 |

## 5. Claims that are false of the code

Where a claim in `properties.jsonl` is false, the theorem is its negation, with a witness computed by the kernel, and the part
that does hold is proved beside it: C03 (pledge, Cardano), C09 (margins of two pools), C25, C27, C30, C33 (list of maximal
iterations), C34 (later phases), C37 (runs that hit the limit), C42, C44 (scheme 3), C58 (two concurrent writers), C60
(`nan`), C61 (drawn seeds), C72 (iteration column), C73 (switching to a simultaneous order), C74 (`n` as a list), C77 (arguments that
the command line accepts and the constructor rejects), C83 (charts one round behind, two charts always empty), C117 (runViz.py cannot be started, test_sim.py not alone), C88 (a repeated parameter value,
`--agent_profile_distr`, scheme 4), C95 (agents of one simultaneous round see what others have planned),
C69 (normally distributed costs), C96 (sums, in floating point: C19, C20, C22 and C29 fail in binary64), C106 (C24 fails in binary64), C107 (the documented meaning of a metric), C109 (a stake that becomes negative), C110 (the documented format of the file with stakes), C97 ("only one local max"), C98
(the order of sets matters when an agent gives up some of its pools), C99 (args.json does not have a drawn seed), C120 (the documented default metrics, and the defaults and options of batch-run.py).  That a
simulation reaches an equilibrium if it is run for long enough is false, too (C84).

No theorem is marked partial now.  C25, C27, C29, C30 and C42 were, until their statements were rephrased (see below).

**Statements changed after the first listing.**  The first version of `properties.jsonl` (commit 40c0953) phrased C33, C37, C41,
C44, C60 and C61 as the claim one would like, with a remark where it was expected to fail.  After the proofs, these six were
rephrased to say exactly what holds, including the exceptions; C34 was made more precise.  So "proved" for them refers to the
rephrased statement: the original, unqualified claim is false for each of C33, C37, C41, C44, C60 and C61, and the theorem
files contain the witnesses.  C25, C27, C29, C30 and C42 were rephrased later in the same way: the first versions claimed that
simultaneous activation preserves the accounting, that `run_model` is safe after `step`, that single-phase simulations never
raise (without exception), the same for several phases, and that inactive stake belongs to no agent; all five are false of the
code, and the new statements say what holds and give the exceptions (for C29 the exception is exact: `C29_cip50_exact`).  C51 and C69 were extended.  C70-C138 were added later.
