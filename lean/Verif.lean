import Verif.Lemmas.Accuracy
import Verif.Lemmas.Alias
import Verif.Lemmas.AllPools
import Verif.Lemmas.Books
import Verif.Lemmas.Calm
import Verif.Lemmas.CommandLine
import Verif.Lemmas.Commit
import Verif.Lemmas.ConstructShape
import Verif.Lemmas.Core
import Verif.Lemmas.Count
import Verif.Lemmas.Dict
import Verif.Lemmas.Drift
import Verif.Lemmas.Eval
import Verif.Lemmas.Exact
import Verif.Lemmas.Exec
import Verif.Lemmas.ExecSpec
import Verif.Lemmas.Firm
import Verif.Lemmas.Graded
import Verif.Lemmas.Greedy
import Verif.Lemmas.GreedyMono
import Verif.Lemmas.HeapPred
import Verif.Lemmas.Ids
import Verif.Lemmas.Keep
import Verif.Lemmas.Kept
import Verif.Lemmas.Lasting
import Verif.Lemmas.Longer
import Verif.Lemmas.Loop
import Verif.Lemmas.Metrics
import Verif.Lemmas.MetricsFloats
import Verif.Lemmas.Mid
import Verif.Lemmas.Nearest
import Verif.Lemmas.NoCrash
import Verif.Lemmas.NoCrashFloats
import Verif.Lemmas.NoDrift
import Verif.Lemmas.Normal
import Verif.Lemmas.Others
import Verif.Lemmas.Phase
import Verif.Lemmas.Plan
import Verif.Lemmas.PlanMove
import Verif.Lemmas.PlanOk
import Verif.Lemmas.Private
import Verif.Lemmas.PrivateFloats
import Verif.Lemmas.Profit
import Verif.Lemmas.Public
import Verif.Lemmas.Reach
import Verif.Lemmas.Ready
import Verif.Lemmas.Relax
import Verif.Lemmas.Rename
import Verif.Lemmas.Rewards
import Verif.Lemmas.Run
import Verif.Lemmas.SKL
import Verif.Lemmas.Sat
import Verif.Lemmas.Shaped
import Verif.Lemmas.Shuffle
import Verif.Lemmas.Spares
import Verif.Lemmas.StartFloats
import Verif.Lemmas.Step
import Verif.Lemmas.Tally
import Verif.Lemmas.Terms
import Verif.Lemmas.Thin
import Verif.Lemmas.Thr
import Verif.Lemmas.Twin
import Verif.Model.ArgsFile
import Verif.Model.AxisLabels
import Verif.Model.Batch
import Verif.Model.BatchFloats
import Verif.Model.BatchMain
import Verif.Model.BatchPlots
import Verif.Model.BatchRun
import Verif.Model.Cache
import Verif.Model.Cli
import Verif.Model.CommandLine
import Verif.Model.Construct
import Verif.Model.Curve
import Verif.Model.Distr
import Verif.Model.Drafts
import Verif.Model.Execute
import Verif.Model.Export
import Verif.Model.Files
import Verif.Model.Graphs
import Verif.Model.Helper
import Verif.Model.Imports
import Verif.Model.Init
import Verif.Model.Loop
import Verif.Model.MainFloats
import Verif.Model.MainRun
import Verif.Model.MinPledge
import Verif.Model.Order
import Verif.Model.Pool
import Verif.Model.Ranks
import Verif.Model.Reporters
import Verif.Model.Rewards
import Verif.Model.Sim
import Verif.Model.StakeFile
import Verif.Model.Stakeholder
import Verif.Model.State
import Verif.Model.Table
import Verif.Model.Target
import Verif.Model.Tests
import Verif.Model.Viz
import Verif.Props.Accounting
import Verif.Props.Accuracy
import Verif.Props.AgentNames
import Verif.Props.ArgsFile
import Verif.Props.Averages
import Verif.Props.AxisLabels
import Verif.Props.Batch
import Verif.Props.BatchFloats
import Verif.Props.BatchIds
import Verif.Props.BatchMain
import Verif.Props.BatchPlots
import Verif.Props.BatchRow
import Verif.Props.BatchRun
import Verif.Props.Beliefs
import Verif.Props.BestCount
import Verif.Props.Bystanders
import Verif.Props.Cache
import Verif.Props.Cli
import Verif.Props.CommandLine
import Verif.Props.Commit
import Verif.Props.Conflict
import Verif.Props.Construct
import Verif.Props.ConvergedRow
import Verif.Props.CostEfficient
import Verif.Props.Crash
import Verif.Props.CrashFloats
import Verif.Props.Curve
import Verif.Props.Delegation
import Verif.Props.Derived
import Verif.Props.Distr
import Verif.Props.DraftIds
import Verif.Props.Drift
import Verif.Props.EndToEnd
import Verif.Props.Equilibrium
import Verif.Props.Export
import Verif.Props.Files
import Verif.Props.Gini
import Verif.Props.Graphs
import Verif.Props.IdleFloats
import Verif.Props.IdleSimultaneous
import Verif.Props.Imports
import Verif.Props.Limits
import Verif.Props.Longer
import Verif.Props.Loop
import Verif.Props.MainFloats
import Verif.Props.MainRun
import Verif.Props.Margins
import Verif.Props.MetricMeaning
import Verif.Props.Metrics
import Verif.Props.MinPledge
import Verif.Props.Monopoly
import Verif.Props.MonopolyTogether
import Verif.Props.Names
import Verif.Props.NoConvergence
import Verif.Props.Normalising
import Verif.Props.Operators
import Verif.Props.Order
import Verif.Props.Orderly
import Verif.Props.OrderlyRun
import Verif.Props.Orders
import Verif.Props.Parameters
import Verif.Props.PhaseValues
import Verif.Props.Phases
import Verif.Props.Placed
import Verif.Props.Placeholders
import Verif.Props.Planned
import Verif.Props.Planning
import Verif.Props.PoolCount
import Verif.Props.PrivateFloats
import Verif.Props.ProjectTests
import Verif.Props.PublicInfo
import Verif.Props.Ranking
import Verif.Props.Rational
import Verif.Props.Ratios
import Verif.Props.Rejects
import Verif.Props.Rerun
import Verif.Props.Rewards
import Verif.Props.Rounding
import Verif.Props.Rounds
import Verif.Props.RunFloats
import Verif.Props.SameView
import Verif.Props.Sampling
import Verif.Props.Search
import Verif.Props.SetOrder
import Verif.Props.Simultaneous
import Verif.Props.SoleMetrics
import Verif.Props.SolePools
import Verif.Props.SoleTogether
import Verif.Props.Split
import Verif.Props.StakeFile
import Verif.Props.Structure
import Verif.Props.Table
import Verif.Props.Target
import Verif.Props.Thresholds
import Verif.Props.Tighter
import Verif.Props.TopK
import Verif.Props.Viable
import Verif.Props.Viz
import Verif.Py.Basic
import Verif.Py.Binary64
import Verif.Py.Dict
import Verif.Py.ExceptEq
import Verif.Py.SortedKeyList
import Verif.Spec.BatchMain
import Verif.Spec.CommandLine
import Verif.Spec.Demo
import Verif.Spec.Loop
import Verif.Spec.MainRun
import Verif.Spec.Rounded
import Verif.Spec.Sim
import Verif.Audit
