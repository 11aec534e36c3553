import Verif.Base.OMap
import Verif.Base.Res
import Verif.Model.AnalyzePlot
import Verif.Model.AnalyzeReport
import Verif.Model.AnalyzeTraces
import Verif.Model.AnyDatasetIO
import Verif.Model.AnyFloat
import Verif.Model.AnyForest
import Verif.Model.AnyMetric
import Verif.Model.AnyMetricIO
import Verif.Model.AnyNet
import Verif.Model.AnyPredict
import Verif.Model.AnyTrain
import Verif.Model.Callpath
import Verif.Model.Collective
import Verif.Model.CollectiveRun
import Verif.Model.CreateDataset
import Verif.Model.Dataset
import Verif.Model.DatasetIO
import Verif.Model.Exhaustive
import Verif.Model.Factory
import Verif.Model.Forest
import Verif.Model.Histogram
import Verif.Model.Jit
import Verif.Model.Kokkos
import Verif.Model.KokkosInit
import Verif.Model.KokkosKernels
import Verif.Model.KokkosStrings
import Verif.Model.Net
import Verif.Model.NetDouble
import Verif.Model.NetExplorer
import Verif.Model.NetReal
import Verif.Model.Opencv
import Verif.Model.OpencvDot
import Verif.Model.Parser
import Verif.Model.ParserError
import Verif.Model.PlotTrace
import Verif.Model.PolicyModels
import Verif.Model.PolicyNet
import Verif.Model.Ranks
import Verif.Model.Region
import Verif.Model.RegionNet
import Verif.Model.RegionPlot
import Verif.Model.RegionPolicy
import Verif.Model.SearchTree
import Verif.Model.SharedFiles
import Verif.Model.Startup
import Verif.Model.Tables
import Verif.Model.TimeTrace
import Verif.Model.TimerAsync
import Verif.Model.TimerSwap
import Verif.Model.TraceFiles
import Verif.Model.Tree
import Verif.Model.TreeDot
import Verif.Model.TreeIO
import Verif.Num.Bits
import Verif.Num.Decimal
import Verif.Num.Round
import Verif.Num.RoundNearest
import Verif.Proofs.Accuracy
import Verif.Proofs.AnalyzePlot
import Verif.Proofs.Answers
import Verif.Proofs.AnyDatasetIO
import Verif.Proofs.AnyDatasetRT
import Verif.Proofs.AnyFloat
import Verif.Proofs.AnyForest
import Verif.Proofs.AnyMetric
import Verif.Proofs.AnyMetricIO
import Verif.Proofs.AnyPredict
import Verif.Proofs.AnyTrain
import Verif.Proofs.BestLines
import Verif.Proofs.BestStep
import Verif.Proofs.CSource
import Verif.Proofs.Callpath
import Verif.Proofs.Collective
import Verif.Proofs.CollectiveRun
import Verif.Proofs.Consumes
import Verif.Proofs.ContextFree
import Verif.Proofs.Dataset
import Verif.Proofs.DatasetBest
import Verif.Proofs.DatasetHist
import Verif.Proofs.DatasetIO
import Verif.Proofs.DatasetRT
import Verif.Proofs.DatasetReader
import Verif.Proofs.Decimal
import Verif.Proofs.DecimalRange
import Verif.Proofs.Exhaustive
import Verif.Proofs.Explained
import Verif.Proofs.Factory
import Verif.Proofs.FileLayout
import Verif.Proofs.Forest
import Verif.Proofs.ForestDot
import Verif.Proofs.Gini
import Verif.Proofs.Histogram
import Verif.Proofs.Interface
import Verif.Proofs.InterfaceCollect
import Verif.Proofs.InterfaceModels
import Verif.Proofs.InterfaceNet
import Verif.Proofs.InterfaceRun
import Verif.Proofs.InterfaceStep
import Verif.Proofs.Jit
import Verif.Proofs.Kokkos
import Verif.Proofs.KokkosFence
import Verif.Proofs.KokkosFrom
import Verif.Proofs.KokkosInit
import Verif.Proofs.KokkosInv
import Verif.Proofs.KokkosKernels
import Verif.Proofs.KokkosMany
import Verif.Proofs.KokkosOwn
import Verif.Proofs.KokkosRange
import Verif.Proofs.KokkosRun
import Verif.Proofs.KokkosSpec
import Verif.Proofs.KokkosStrings
import Verif.Proofs.KokkosTuning
import Verif.Proofs.MetricLayout
import Verif.Proofs.ModelEnds
import Verif.Proofs.ModelLayout
import Verif.Proofs.Nearest
import Verif.Proofs.NetBackward
import Verif.Proofs.NetEnds
import Verif.Proofs.NetExplorer
import Verif.Proofs.NetForward
import Verif.Proofs.NetGradient
import Verif.Proofs.NetLoops
import Verif.Proofs.NetReal
import Verif.Proofs.NetSizes
import Verif.Proofs.NetSoftmax
import Verif.Proofs.NetTrain
import Verif.Proofs.OneRegion
import Verif.Proofs.OpencvDot
import Verif.Proofs.OptimalRun
import Verif.Proofs.Parser
import Verif.Proofs.PlotTrace
import Verif.Proofs.PolicyLines
import Verif.Proofs.PolicyModels
import Verif.Proofs.PolicyNetFile
import Verif.Proofs.PolicyNetKey
import Verif.Proofs.PolicyNetLoad
import Verif.Proofs.PolicyNetReal
import Verif.Proofs.PolicyNetRun
import Verif.Proofs.PolicyNetSample
import Verif.Proofs.PrintTree
import Verif.Proofs.ProcessTrace
import Verif.Proofs.Ranks
import Verif.Proofs.RanksCall
import Verif.Proofs.RanksData
import Verif.Proofs.RanksInv
import Verif.Proofs.RanksSame
import Verif.Proofs.RanksTrace
import Verif.Proofs.Reads
import Verif.Proofs.Region
import Verif.Proofs.RegionCount
import Verif.Proofs.RegionData
import Verif.Proofs.RegionFiles
import Verif.Proofs.RegionFrame
import Verif.Proofs.RegionHush
import Verif.Proofs.RegionInv
import Verif.Proofs.RegionLog
import Verif.Proofs.RegionNet
import Verif.Proofs.RegionPending
import Verif.Proofs.RegionPersist
import Verif.Proofs.RegionPlot
import Verif.Proofs.RegionQuiet
import Verif.Proofs.RegionRange
import Verif.Proofs.RegionSolo
import Verif.Proofs.RegionTrace
import Verif.Proofs.RegionTrain
import Verif.Proofs.RegionWrite
import Verif.Proofs.Replay
import Verif.Proofs.ScriptAgg
import Verif.Proofs.ScriptData
import Verif.Proofs.ScriptFrame
import Verif.Proofs.ScriptNum
import Verif.Proofs.ScriptOpt
import Verif.Proofs.ScriptReport
import Verif.Proofs.ScriptText
import Verif.Proofs.SearchTree
import Verif.Proofs.SharedFiles
import Verif.Proofs.SharedPaths
import Verif.Proofs.TestCounts
import Verif.Proofs.TestRanks
import Verif.Proofs.TestRuns
import Verif.Proofs.Timer
import Verif.Proofs.TimerAsync
import Verif.Proofs.TimerOrder
import Verif.Proofs.TimerSwap
import Verif.Proofs.TraceFiles
import Verif.Proofs.TraceRuns
import Verif.Proofs.Tree
import Verif.Proofs.TreeBuild
import Verif.Proofs.TreeDot
import Verif.Proofs.TreeIO
import Verif.Proofs.TreeRT
import Verif.Proofs.TreeReach
import Verif.Proofs.TreeRoom
import Verif.Proofs.TreeShape
import Verif.Proofs.TreeSplit
import Verif.Proofs.TreeStore
import Verif.Proofs.TreeTrain
import Verif.Proofs.TreeYaml
import Verif.Proofs.TwoRuns
import Verif.Proofs.Yaml
import Verif.Props.Accuracy
import Verif.Props.AnalyzePlot
import Verif.Props.AnalyzeTraces
import Verif.Props.AnyDatasetIO
import Verif.Props.AnyFloat
import Verif.Props.AnyForest
import Verif.Props.AnyMetric
import Verif.Props.AnyMetricIO
import Verif.Props.AnyNet
import Verif.Props.AnyPredict
import Verif.Props.AnyTrain
import Verif.Props.BestLines
import Verif.Props.Callpath
import Verif.Props.Collective
import Verif.Props.CollectiveRun
import Verif.Props.ContextFree
import Verif.Props.CreateDataset
import Verif.Props.Dataset
import Verif.Props.DatasetIO
import Verif.Props.ExecInfo
import Verif.Props.Exhaustive
import Verif.Props.Explained
import Verif.Props.Factory
import Verif.Props.FileLayout
import Verif.Props.Forest
import Verif.Props.FromFile
import Verif.Props.Histogram
import Verif.Props.Interface
import Verif.Props.InterfaceNet
import Verif.Props.Jit
import Verif.Props.JitSource
import Verif.Props.Kokkos
import Verif.Props.KokkosFence
import Verif.Props.KokkosInit
import Verif.Props.KokkosKernels
import Verif.Props.KokkosMany
import Verif.Props.KokkosOwn
import Verif.Props.KokkosRange
import Verif.Props.KokkosRun
import Verif.Props.KokkosStrings
import Verif.Props.KokkosTuning
import Verif.Props.MetricLayout
import Verif.Props.ModelLayout
import Verif.Props.Models
import Verif.Props.Net
import Verif.Props.NetExplorer
import Verif.Props.NetGradient
import Verif.Props.Numbers
import Verif.Props.Opencv
import Verif.Props.OpencvDot
import Verif.Props.Parser
import Verif.Props.ParserError
import Verif.Props.PlotTrace
import Verif.Props.PolicyLines
import Verif.Props.PolicyNet
import Verif.Props.PolicyNetCache
import Verif.Props.PolicyTrace
import Verif.Props.ProcessTrace
import Verif.Props.Ranks
import Verif.Props.Region
import Verif.Props.RegionExamples
import Verif.Props.RegionFiles
import Verif.Props.RegionNet
import Verif.Props.RegionPersist
import Verif.Props.RegionPlot
import Verif.Props.RegionRange
import Verif.Props.RegionSolo
import Verif.Props.RegionTrain
import Verif.Props.RegionWrite
import Verif.Props.Replay
import Verif.Props.Report
import Verif.Props.Settings
import Verif.Props.SharedFiles
import Verif.Props.Startup
import Verif.Props.TestPrograms
import Verif.Props.TestRanks
import Verif.Props.Timer
import Verif.Props.TimerAsync
import Verif.Props.TimerSwap
import Verif.Props.Trace
import Verif.Props.TraceFiles
import Verif.Props.Tree
import Verif.Props.TreeDot
import Verif.Props.TreeIO
import Verif.Props.TwoRuns
import Verif.Spec.Accuracy
import Verif.Spec.AnalyzePlot
import Verif.Spec.AnyFloat
import Verif.Spec.AnyMetric
import Verif.Spec.AnyNet
import Verif.Spec.AnyPredict
import Verif.Spec.AnyTrain
import Verif.Spec.BestLines
import Verif.Spec.CSource
import Verif.Spec.Clock
import Verif.Spec.ContextFree
import Verif.Spec.Dataset
import Verif.Spec.Dot
import Verif.Spec.ExecInfo
import Verif.Spec.Exhaustive
import Verif.Spec.FileLayout
import Verif.Spec.Files
import Verif.Spec.Forest
import Verif.Spec.Gradient
import Verif.Spec.Histogram
import Verif.Spec.Interface
import Verif.Spec.Jit
import Verif.Spec.Kokkos
import Verif.Spec.KokkosFence
import Verif.Spec.KokkosInit
import Verif.Spec.KokkosKernels
import Verif.Spec.KokkosMany
import Verif.Spec.KokkosOwn
import Verif.Spec.KokkosRange
import Verif.Spec.KokkosStrings
import Verif.Spec.KokkosTuning
import Verif.Spec.MetricLayout
import Verif.Spec.Models
import Verif.Spec.Net
import Verif.Spec.NetExplorer
import Verif.Spec.Opencv
import Verif.Spec.OpencvDot
import Verif.Spec.PlotTrace
import Verif.Spec.PolicyLines
import Verif.Spec.PolicyTrace
import Verif.Spec.ProcessTrace
import Verif.Spec.Ranks
import Verif.Spec.Region
import Verif.Spec.RegionPlot
import Verif.Spec.RegionSolo
import Verif.Spec.Replay
import Verif.Spec.Report
import Verif.Spec.Scripts
import Verif.Spec.Settings
import Verif.Spec.SharedFiles
import Verif.Spec.Startup
import Verif.Spec.TestPrograms
import Verif.Spec.TextWords
import Verif.Spec.TimerAsync
import Verif.Spec.TimerSwap
import Verif.Spec.Trace
import Verif.Spec.Tree
import Verif.Spec.TreeDot
import Verif.Spec.TreeRoom
import Verif.Spec.TwoRuns
import Verif.Spec.Yaml
