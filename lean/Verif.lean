import Verif.Props.IndexCollection
import Verif.Props.Sampling
import Verif.Props.MultiLabelTools
import Verif.Props.MultiLabel
import Verif.Props.MultiLabelMask
import Verif.Props.State
import Verif.Props.StateIO
import Verif.Props.Stopping
import Verif.Props.MainLoop
import Verif.Props.Oracle
import Verif.Props.OracleMultiLabel
import Verif.Props.Oracles
import Verif.Props.Repository
import Verif.Props.RepositoryMatrix
import Verif.Props.RepositoryCost
import Verif.Props.Split
import Verif.Props.Scale
import Verif.Props.Metrics
import Verif.Props.Ranking
import Verif.Props.Threads
import Verif.Props.Select
import Verif.Props.Pool
import Verif.Props.Coreset
import Verif.Props.Knapsack
import Verif.Props.NoisyOracles
import Verif.Props.IEthresh
import Verif.Props.CostRandom
import Verif.Props.Completion
import Verif.Props.MultiLabelSelect
import Verif.Props.Committee
import Verif.Props.Quire
import Verif.Props.StateList
import Verif.Props.RankingMetrics
import Verif.Props.MultiLabelBatch
import Verif.Props.Hierarchy
import Verif.Props.CostSelect
import Verif.Props.Analyser
import Verif.Props.CostCurve
import Verif.Props.Bmdr
import Verif.Props.Kernel
import Verif.Props.Session
import Verif.Props.NoisySelect
import Verif.Props.ToolBox
import Verif.Props.LabelRanking
import Verif.Props.BinaryRelevance
import Verif.Props.Peek
import Verif.Props.MLQuire
import Verif.Props.Adaptive
import Verif.Props.Experiment
import Verif.Props.Setup
import Verif.Model.PairSession
import Verif.Spec.PairSession
import Verif.Props.PairSession
import Verif.Model.GraphDensity
import Verif.Spec.GraphDensity
import Verif.Props.GraphDensity
import Verif.Model.Alias
import Verif.Spec.Alias
import Verif.Props.Alias
import Verif.Spec.MetricSymmetry
import Verif.Props.MetricSymmetry
import Verif.Model.Rounding
import Verif.Spec.Rounding
import Verif.Props.Rounding
import Verif.Model.Resume
import Verif.Spec.Resume
import Verif.Props.Resume
import Verif.Model.Perf
import Verif.Spec.Perf
import Verif.Props.Perf
import Verif.Spec.Agree
import Verif.Props.Agree
import Verif.Spec.Fair
import Verif.Props.Fair
import Verif.Spec.Consensus
import Verif.Props.Consensus
import Verif.Model.TTest
import Verif.Spec.TTest
import Verif.Props.TTest
import Verif.Model.Lal
import Verif.Spec.Lal
import Verif.Props.Lal
import Verif.Model.Forms
import Verif.Spec.Forms
import Verif.Props.Forms
import Verif.Model.PlotCheck
import Verif.Spec.PlotCheck
import Verif.Props.PlotCheck
import Verif.Model.Progress
import Verif.Spec.Progress
import Verif.Props.Progress
import Verif.Model.Causal
import Verif.Spec.Causal
import Verif.Props.Causal
import Verif.Model.Afasmc
import Verif.Spec.Afasmc
import Verif.Proof.Afasmc
import Verif.Props.Afasmc
import Verif.Model.SvdTrace
import Verif.Spec.SvdTrace
import Verif.Props.SvdTrace
import Verif.Proof.EckartYoung
import Verif.Model.Admm
import Verif.Spec.Admm
import Verif.Proof.Admm
import Verif.Props.Admm
import Verif.Props.FairPairs
import Verif.Model.BmdrSelect
import Verif.Spec.Classes
import Verif.Proof.BmdrSym
import Verif.Props.ClassNames
import Verif.Model.Params
import Verif.Spec.Params
import Verif.Props.Params
import Verif.Model.Curve
import Verif.Spec.Curve
import Verif.Props.Curve
import Verif.Model.KnapsackFloat
import Verif.Props.KnapsackFloat
import Verif.Model.ToolForms
import Verif.Props.ToolForms
import Verif.Props.FairSplits
import Verif.Model.History
import Verif.Spec.History
import Verif.Props.History
import Verif.Model.AnalyserForms
import Verif.Spec.AnalyserForms
import Verif.Props.AnalyserForms
import Verif.Model.Kernels
import Verif.Spec.Kernels
import Verif.Props.Kernels
import Verif.Model.Eer
import Verif.Spec.Eer
import Verif.Props.Eer
import Verif.Model.Files
import Verif.Spec.Files
import Verif.Props.Files
import Verif.Spec.Batches
import Verif.Props.Batches
import Verif.Model.Distances
import Verif.Spec.Perfect
import Verif.Spec.Geometry
import Verif.Props.Perfect
import Verif.Props.Geometry
import Verif.Props.Meeting
import Verif.Props.Units
import Verif.Model.Workers
import Verif.Spec.Workers
import Verif.Props.Workers
import Verif.Spec.Improve
import Verif.Props.Improve
import Verif.Props.ScaleUnits
import Verif.Model.Display
import Verif.Spec.Display
import Verif.Props.Display
import Verif.Model.Shade
import Verif.Spec.Shade
import Verif.Props.Shade
import Verif.Props.VoteRight
import Verif.Spec.Even
import Verif.Props.Even
import Verif.Model.CompletionForms
import Verif.Spec.CompletionForms
import Verif.Props.CompletionForms
import Verif.Spec.Names
import Verif.Props.Names
import Verif.Spec.Ends
import Verif.Props.Ends
import Verif.Spec.LeaveOut
import Verif.Props.LeaveOut
import Verif.Spec.Parts
import Verif.Props.Parts
import Verif.Props.Limits
import Verif.Spec.LabelOrder
import Verif.Props.LabelOrder
import Verif.Props.AudiSpread
import Verif.Spec.StaySelected
import Verif.Spec.SameMeasure
import Verif.Props.StaySelected
import Verif.Props.SameMeasure
import Verif.Spec.Calls
import Verif.Props.Calls
import Verif.Props.AnyOrder
import Verif.Spec.Criteria
import Verif.Props.PossReach
import Verif.Props.Criteria
import Verif.Props.CriteriaExp
import Verif.Props.Undo
import Verif.Props.Twice
import Verif.Spec.Chance
import Verif.Props.Chance
import Verif.Props.ToolBoxMatrix
import Verif.Model.LalFiles
import Verif.Props.LalFiles
import Verif.Props.RepositoryAny
import Verif.Props.MoreIsBetter
import Verif.Model.ThreadsAgain
import Verif.Props.ThreadsAgain
import Verif.Model.ThreadsObject
import Verif.Props.ThreadsObject
import Verif.Props.Ranges
import Verif.Model.FeatureCalls
import Verif.Props.FeatureCalls
import Verif.Spec.BmdrSelect
import Verif.Props.BmdrSelect
import Verif.Props.RepositoryCharges
import Verif.Props.Plain
import Verif.Props.Refused
import Verif.Props.Share
import Verif.Props.SameRun
import Verif.Props.MLQuireOrder
import Verif.Spec.Grouped
import Verif.Props.Grouped
import Verif.Spec.Pooled
import Verif.Props.Pooled
import Verif.Props.PooledCost
