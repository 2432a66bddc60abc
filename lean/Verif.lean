import Verif.Model.AsRel
import Verif.Model.Base
import Verif.Model.Blocking
import Verif.Model.Bulk
import Verif.Model.BulkAnalyze
import Verif.Model.Checked
import Verif.Model.CheckedFrontEnd
import Verif.Model.Fbas
import Verif.Model.FbasOrder
import Verif.Model.FrontEnd
import Verif.Model.Graph
import Verif.Model.Groupings
import Verif.Model.Io
import Verif.Model.IoGroupings
import Verif.Model.Json
import Verif.Model.Machine
import Verif.Model.Mean
import Verif.Model.Output
import Verif.Model.Preprocessing
import Verif.Model.QuorumSet
import Verif.Model.Quorums
import Verif.Model.Ranking
import Verif.Model.Results
import Verif.Model.Reuse
import Verif.Model.Sets
import Verif.Model.Shrinking
import Verif.Model.Simulation
import Verif.Model.SimulatorTools
import Verif.Model.Splitting
import Verif.Model.Symmetric
import Verif.Model.Tool
import Verif.Spec
import Verif.SpecBulk
import Verif.SpecBulkAnalyze
import Verif.SpecExecution
import Verif.SpecFileOrder
import Verif.SpecFloatRank
import Verif.SpecGraph
import Verif.SpecGroups
import Verif.SpecInputOrder
import Verif.SpecJson
import Verif.SpecMachine
import Verif.SpecMergedOrgs
import Verif.SpecMesh
import Verif.SpecNames
import Verif.SpecOrder
import Verif.SpecOrgs
import Verif.SpecOutput
import Verif.SpecPipeline
import Verif.SpecProbability
import Verif.SpecRange
import Verif.SpecRanking
import Verif.SpecRaw
import Verif.SpecReuse
import Verif.SpecSafety
import Verif.SpecSafetyChance
import Verif.SpecSearch
import Verif.SpecSeparate
import Verif.SpecSimulation
import Verif.SpecSimulator
import Verif.SpecSmallWorld
import Verif.SpecStricter
import Verif.SpecThreshold
import Verif.SpecTidy
import Verif.SpecTidyInput
import Verif.SpecTool
import Verif.SpecUniform
import Verif.SpecWhatIf
import Verif.Lemmas.AsRel
import Verif.Lemmas.Base
import Verif.Lemmas.Blocking
import Verif.Lemmas.BlockingAll
import Verif.Lemmas.Bounds
import Verif.Lemmas.Bulk
import Verif.Lemmas.BulkAnalyze
import Verif.Lemmas.Canonical
import Verif.Lemmas.Checked
import Verif.Lemmas.CheckedAntichain
import Verif.Lemmas.CheckedDebug
import Verif.Lemmas.CheckedFrontEnd
import Verif.Lemmas.CheckedSearch
import Verif.Lemmas.Clusters
import Verif.Lemmas.Combine
import Verif.Lemmas.Execution
import Verif.Lemmas.Extension
import Verif.Lemmas.Fbas
import Verif.Lemmas.FileOrder
import Verif.Lemmas.Float
import Verif.Lemmas.FloatRank
import Verif.Lemmas.FrontEnd
import Verif.Lemmas.FrontEndCalls
import Verif.Lemmas.FrontEndModes
import Verif.Lemmas.FrontEndShape
import Verif.Lemmas.Graph
import Verif.Lemmas.GraphGenerator
import Verif.Lemmas.Groupings
import Verif.Lemmas.Growth
import Verif.Lemmas.InputOrder
import Verif.Lemmas.Io
import Verif.Lemmas.IoGroupings
import Verif.Lemmas.IoQuorums
import Verif.Lemmas.Json
import Verif.Lemmas.Loop
import Verif.Lemmas.Machine
import Verif.Lemmas.MachineFrontEnd
import Verif.Lemmas.MachineLoading
import Verif.Lemmas.Merge
import Verif.Lemmas.MergeClusters
import Verif.Lemmas.MergeOrder
import Verif.Lemmas.MergedOrgs
import Verif.Lemmas.Mesh
import Verif.Lemmas.MeshRuns
import Verif.Lemmas.MinQuorums
import Verif.Lemmas.Nonintersecting
import Verif.Lemmas.Order
import Verif.Lemmas.Orgs
import Verif.Lemmas.Output
import Verif.Lemmas.Performance
import Verif.Lemmas.PerformanceCount
import Verif.Lemmas.Pipeline
import Verif.Lemmas.Probability
import Verif.Lemmas.Qsc
import Verif.Lemmas.QsetOrder
import Verif.Lemmas.QuorumMode
import Verif.Lemmas.QuorumSet
import Verif.Lemmas.Quorums
import Verif.Lemmas.RandomEarly
import Verif.Lemmas.RandomNetwork
import Verif.Lemmas.RandomRange
import Verif.Lemmas.RandomSafety
import Verif.Lemmas.RandomSets
import Verif.Lemmas.RandomUniform
import Verif.Lemmas.RandomWeighted
import Verif.Lemmas.Rank
import Verif.Lemmas.Ranking
import Verif.Lemmas.Rename
import Verif.Lemmas.RenameCalls
import Verif.Lemmas.RenameFrontEnd
import Verif.Lemmas.RenameSearch
import Verif.Lemmas.RenameShrink
import Verif.Lemmas.Results
import Verif.Lemmas.Reuse
import Verif.Lemmas.ReuseReport
import Verif.Lemmas.Rewire
import Verif.Lemmas.Safety
import Verif.Lemmas.SameQSet
import Verif.Lemmas.ScaleFree
import Verif.Lemmas.ScaleFreeProbability
import Verif.Lemmas.Search
import Verif.Lemmas.Separate
import Verif.Lemmas.Sets
import Verif.Lemmas.Shrinking
import Verif.Lemmas.Shuffle
import Verif.Lemmas.Simulation
import Verif.Lemmas.SimulatorFame
import Verif.Lemmas.SimulatorPolicies
import Verif.Lemmas.SimulatorSteady
import Verif.Lemmas.SimulatorTools
import Verif.Lemmas.SmallWorld
import Verif.Lemmas.SmallWorldProbability
import Verif.Lemmas.Splitting
import Verif.Lemmas.SplittingClusters
import Verif.Lemmas.SplittingExact
import Verif.Lemmas.SplittingSound
import Verif.Lemmas.StandardForm
import Verif.Lemmas.StandardFormIdem
import Verif.Lemmas.Subsets
import Verif.Lemmas.Symmetric
import Verif.Lemmas.Threshold
import Verif.Lemmas.Tidy
import Verif.Lemmas.TidyInput
import Verif.Lemmas.TidyStandardForm
import Verif.Lemmas.Tool
import Verif.Lemmas.ToolParts
import Verif.Lemmas.ToolRun
import Verif.Lemmas.Uniform
import Verif.Lemmas.Weights
import Verif.Lemmas.WhatIf
import Verif.Ref.Decide
import Verif.Ref.Env
import Verif.Ref.Json
import Verif.Props.AsRel
import Verif.Props.Blocking
import Verif.Props.BlockingFirst
import Verif.Props.Bounds
import Verif.Props.Bulk
import Verif.Props.BulkAnalyze
import Verif.Props.Checked
import Verif.Props.Core
import Verif.Props.Execution
import Verif.Props.Extension
import Verif.Props.FbasOrder
import Verif.Props.FileOrder
import Verif.Props.FloatRank
import Verif.Props.FrontEnd
import Verif.Props.FrontEndSound
import Verif.Props.Graph
import Verif.Props.GraphGenerator
import Verif.Props.GraphQsc
import Verif.Props.GroupFailures
import Verif.Props.Groupings
import Verif.Props.HigherTier
import Verif.Props.InputOrder
import Verif.Props.Io
import Verif.Props.IoGroupings
import Verif.Props.Json
import Verif.Props.Machine
import Verif.Props.Mean
import Verif.Props.MergedOrgs
import Verif.Props.Names
import Verif.Props.Nonintersecting
import Verif.Props.Orgs
import Verif.Props.Output
import Verif.Props.Performance
import Verif.Props.Pipeline
import Verif.Props.PipelineBulk
import Verif.Props.Probability
import Verif.Props.Qsc
import Verif.Props.Quorums
import Verif.Props.RandomGraph
import Verif.Props.RandomRange
import Verif.Props.RandomSafety
import Verif.Props.RandomUniform
import Verif.Props.RandomWeighted
import Verif.Props.Ranking
import Verif.Props.Results
import Verif.Props.Reuse
import Verif.Props.Safety
import Verif.Props.SafetyChance
import Verif.Props.SafetyFame
import Verif.Props.Search
import Verif.Props.Separate
import Verif.Props.Shrinking
import Verif.Props.ShuffleProbability
import Verif.Props.Simulation
import Verif.Props.SimulatorTools
import Verif.Props.SmallWorldProbability
import Verif.Props.SmallWorldRange
import Verif.Props.Splitting
import Verif.Props.SplittingExact
import Verif.Props.StandardForm
import Verif.Props.Stricter
import Verif.Props.Symmetric
import Verif.Props.Threshold
import Verif.Props.Tidy
import Verif.Props.TidyInput
import Verif.Props.TidyReuse
import Verif.Props.TidyTool
import Verif.Props.Tool
import Verif.Props.Uniform
import Verif.Props.Weights
import Verif.Props.WhatIf
import Verif.Conformance.Core
import Verif.Conformance.Io
import Verif.Conformance.Simulation
