import Verif.Lemmas.BifNetwork
import Verif.Lemmas.BifNetwork2
import Verif.Lemmas.BifNetwork3
import Verif.Lemmas.BifNetwork4
import Verif.Lemmas.CellTable
import Verif.Lemmas.CellTable2
import Verif.Lemmas.CellTable3
import Verif.Lemmas.ChiSquare
import Verif.Lemmas.Chickering
import Verif.Lemmas.Chickering2
import Verif.Lemmas.ChoiceGenerator
import Verif.Lemmas.ClassifyCommand
import Verif.Lemmas.Combs
import Verif.Lemmas.Commands
import Verif.Lemmas.Commands2
import Verif.Lemmas.Compare
import Verif.Lemmas.Compare2
import Verif.Lemmas.Compare3
import Verif.Lemmas.Compare4
import Verif.Lemmas.DSeparation
import Verif.Lemmas.Dataset
import Verif.Lemmas.Dataset2
import Verif.Lemmas.Dataset3
import Verif.Lemmas.Dataset4
import Verif.Lemmas.Dataset5
import Verif.Lemmas.Dependence
import Verif.Lemmas.Detect
import Verif.Lemmas.Except
import Verif.Lemmas.GeneratorOwnership
import Verif.Lemmas.Graph
import Verif.Lemmas.IndependenceTest
import Verif.Lemmas.IndependenceTest2
import Verif.Lemmas.Index
import Verif.Lemmas.Inference
import Verif.Lemmas.Int32
import Verif.Lemmas.Int32Skeleton
import Verif.Lemmas.Int32Test
import Verif.Lemmas.Int32Test2
import Verif.Lemmas.Irrelevant
import Verif.Lemmas.JTBuild
import Verif.Lemmas.JTCalibrate
import Verif.Lemmas.JTElim
import Verif.Lemmas.JTElim2
import Verif.Lemmas.JTEvidence
import Verif.Lemmas.JTLevels
import Verif.Lemmas.JTMoral
import Verif.Lemmas.JTParallel
import Verif.Lemmas.JTParallel2
import Verif.Lemmas.JTParallel3
import Verif.Lemmas.JTParallel4
import Verif.Lemmas.JTParallel5
import Verif.Lemmas.JTPlan
import Verif.Lemmas.JTPrim
import Verif.Lemmas.JTQuery
import Verif.Lemmas.JTShape
import Verif.Lemmas.JTTables
import Verif.Lemmas.JTTree
import Verif.Lemmas.JTZero
import Verif.Lemmas.Joint
import Verif.Lemmas.JunctionTree32
import Verif.Lemmas.JunctionTree32b
import Verif.Lemmas.JunctionTree32c
import Verif.Lemmas.Learn
import Verif.Lemmas.LearnCommands
import Verif.Lemmas.Likelihood
import Verif.Lemmas.Marg
import Verif.Lemmas.MarkovEquiv
import Verif.Lemmas.MarkovReverse
import Verif.Lemmas.MarkovWalk
import Verif.Lemmas.Meek
import Verif.Lemmas.Message
import Verif.Lemmas.MessagePassing
import Verif.Lemmas.MessagePassing2
import Verif.Lemmas.MessagePassing3
import Verif.Lemmas.MessagePassing4
import Verif.Lemmas.MessagePassing5
import Verif.Lemmas.MixedDataset
import Verif.Lemmas.MixedNetwork
import Verif.Lemmas.NaryCount
import Verif.Lemmas.NetDims
import Verif.Lemmas.Network
import Verif.Lemmas.OrientDims
import Verif.Lemmas.Orientation
import Verif.Lemmas.Orientation2
import Verif.Lemmas.Orientation3
import Verif.Lemmas.Orientation4
import Verif.Lemmas.Orientation5
import Verif.Lemmas.Ownership
import Verif.Lemmas.Parameter
import Verif.Lemmas.Parametric
import Verif.Lemmas.Params
import Verif.Lemmas.Params32
import Verif.Lemmas.Pipeline
import Verif.Lemmas.Pipeline2
import Verif.Lemmas.Program
import Verif.Lemmas.Program2
import Verif.Lemmas.Program3
import Verif.Lemmas.Random
import Verif.Lemmas.RootNode
import Verif.Lemmas.RoundedPipeline
import Verif.Lemmas.RoundedTest
import Verif.Lemmas.RoundedTest2
import Verif.Lemmas.RoundedTest3
import Verif.Lemmas.RoundedTest4
import Verif.Lemmas.RoundedTest5
import Verif.Lemmas.Rounding
import Verif.Lemmas.SameData
import Verif.Lemmas.Sampler
import Verif.Lemmas.Sampler2
import Verif.Lemmas.SaveFiles
import Verif.Lemmas.SaveFiles2
import Verif.Lemmas.Schedule
import Verif.Lemmas.Skeleton
import Verif.Lemmas.Skeleton2
import Verif.Lemmas.Skeleton3
import Verif.Lemmas.Skeleton4
import Verif.Lemmas.Skeleton5
import Verif.Lemmas.Skeleton6
import Verif.Lemmas.SkeletonThreads
import Verif.Lemmas.SkeletonThreads2
import Verif.Lemmas.SkeletonThreads3
import Verif.Lemmas.StdSet
import Verif.Lemmas.Table
import Verif.Lemmas.Table2
import Verif.Lemmas.Table3
import Verif.Lemmas.TestCount
import Verif.Lemmas.TestCount2
import Verif.Lemmas.TestCount3
import Verif.Lemmas.TestCount4
import Verif.Lemmas.TestMemory
import Verif.Lemmas.TestMemory2
import Verif.Lemmas.TestMemory3
import Verif.Lemmas.TestMemory4
import Verif.Lemmas.TestMemory5
import Verif.Lemmas.TestMemory6
import Verif.Lemmas.Threads
import Verif.Lemmas.ThreadsOne
import Verif.Lemmas.ThreadsPost
import Verif.Lemmas.ThreadsRace
import Verif.Lemmas.XmlNetwork
import Verif.Model.BifNetwork
import Verif.Model.CellTable
import Verif.Model.ChoiceGenerator
import Verif.Model.Combinations
import Verif.Model.Commands
import Verif.Model.Compare
import Verif.Model.Dataset
import Verif.Model.Evaluation
import Verif.Model.Fault
import Verif.Model.GeneratorOwnership
import Verif.Model.Graph
import Verif.Model.IndependenceTest
import Verif.Model.Inference
import Verif.Model.Int32
import Verif.Model.Int32Skeleton
import Verif.Model.Int32Test
import Verif.Model.JTParallel
import Verif.Model.JunctionTree
import Verif.Model.JunctionTree32
import Verif.Model.JunctionTreeRun
import Verif.Model.LearnCommands
import Verif.Model.MessagePassing
import Verif.Model.MixedCsvTest
import Verif.Model.MixedDataset
import Verif.Model.MixedNetwork
import Verif.Model.NaryCount
import Verif.Model.Network
import Verif.Model.NodeOrder
import Verif.Model.Orientation
import Verif.Model.Ownership
import Verif.Model.Parameter
import Verif.Model.Params
import Verif.Model.Params32
import Verif.Model.Pipeline
import Verif.Model.PrintEdges
import Verif.Model.Program
import Verif.Model.RootNode
import Verif.Model.RoundedLearning
import Verif.Model.RoundedPipeline
import Verif.Model.RoundedTest
import Verif.Model.Sampler
import Verif.Model.SamplingTable
import Verif.Model.SaveFiles
import Verif.Model.Skeleton
import Verif.Model.SkeletonThreads
import Verif.Model.StdSet
import Verif.Model.Strings
import Verif.Model.Table
import Verif.Model.TestMemory
import Verif.Model.Threads
import Verif.Model.ValueOrder
import Verif.Model.XmlNetwork
import Verif.Props.BifNetwork
import Verif.Props.BifValues
import Verif.Props.CellTable
import Verif.Props.ChiSquare
import Verif.Props.ChoiceGenerator
import Verif.Props.Classification
import Verif.Props.ClassifyCommand
import Verif.Props.Coherence
import Verif.Props.Combinations
import Verif.Props.Commands
import Verif.Props.Compare
import Verif.Props.Consistency
import Verif.Props.Dataset
import Verif.Props.Decimal
import Verif.Props.Dependence
import Verif.Props.Detection
import Verif.Props.EndToEnd
import Verif.Props.Evaluation
import Verif.Props.GeneratorOwnership
import Verif.Props.Graph
import Verif.Props.Inference
import Verif.Props.Int32
import Verif.Props.Int32Skeleton
import Verif.Props.Int32Test
import Verif.Props.Irrelevant
import Verif.Props.Joint
import Verif.Props.JunctionTree
import Verif.Props.JunctionTree32
import Verif.Props.JunctionTreeInference
import Verif.Props.Learn
import Verif.Props.LearnCommands
import Verif.Props.LearnRounding
import Verif.Props.Likelihood
import Verif.Props.MarkovEquiv
import Verif.Props.MessagePassing
import Verif.Props.MixedCombs
import Verif.Props.MixedCsvTest
import Verif.Props.MixedCsvTest2
import Verif.Props.MixedDataset
import Verif.Props.MixedNetwork
import Verif.Props.NaryCount
import Verif.Props.Network
import Verif.Props.NetworkCopy
import Verif.Props.NetworkFile
import Verif.Props.NodeOrder
import Verif.Props.NodeOrder2
import Verif.Props.Orientation
import Verif.Props.Ownership
import Verif.Props.Parameter
import Verif.Props.Params
import Verif.Props.Params32
import Verif.Props.Pipeline
import Verif.Props.PrintEdges
import Verif.Props.Program
import Verif.Props.Projection
import Verif.Props.Random
import Verif.Props.RandomAnswers
import Verif.Props.RootNode
import Verif.Props.RoundedLearning
import Verif.Props.RoundedPipeline
import Verif.Props.RoundedTest
import Verif.Props.Rounding
import Verif.Props.SameData
import Verif.Props.Sampler
import Verif.Props.SamplingTable
import Verif.Props.SaveFiles
import Verif.Props.Skeleton
import Verif.Props.SkeletonThreads
import Verif.Props.Strings
import Verif.Props.Table
import Verif.Props.TestCount
import Verif.Props.TestMemory
import Verif.Props.Threads
import Verif.Props.ValueOrder
import Verif.Props.XmlNetwork
import Verif.Props.XmlValues
import Verif.Props.ZeroEvidence
import Verif.Spec.BifFile
import Verif.Spec.CellTable
import Verif.Spec.ChiSquare
import Verif.Spec.Classification
import Verif.Spec.ClassifyCommand
import Verif.Spec.CliqueSize
import Verif.Spec.Commands
import Verif.Spec.Compelled
import Verif.Spec.Consistency
import Verif.Spec.DSeparation
import Verif.Spec.Dataset
import Verif.Spec.Dependence
import Verif.Spec.Evaluation
import Verif.Spec.Factor
import Verif.Spec.Graph
import Verif.Spec.JunctionTree
import Verif.Spec.LearnCommands
import Verif.Spec.Likelihood
import Verif.Spec.MessageOrder
import Verif.Spec.MixedDataset
import Verif.Spec.MixedNetwork
import Verif.Spec.NetFile
import Verif.Spec.Network
import Verif.Spec.Orientation
import Verif.Spec.Parameter
import Verif.Spec.Params
import Verif.Spec.Params32
import Verif.Spec.Pipeline
import Verif.Spec.Posterior
import Verif.Spec.PrintEdges
import Verif.Spec.Program
import Verif.Spec.Projection
import Verif.Spec.Random
import Verif.Spec.RoundedTest
import Verif.Spec.Rounding
import Verif.Spec.SameData
import Verif.Spec.Sampler
import Verif.Spec.SaveFiles
import Verif.Spec.Skeleton
import Verif.Spec.Strings
import Verif.Spec.TestCount
import Verif.Spec.TestMemory
import Verif.Spec.ValueOrder
import Verif.Spec.XmlValues
