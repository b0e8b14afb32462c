import Verif.ADD.ADD
import Verif.Audit
import Verif.DD.BDD
import Verif.DD.Node
import Verif.Model.AddHelpers
import Verif.Model.Adders
import Verif.Model.BenchTables
import Verif.Model.Benchmark
import Verif.Model.Bucket
import Verif.Model.Count
import Verif.Model.CuddHelpers
import Verif.Model.DotText
import Verif.Model.DumpDot
import Verif.Model.Experiments
import Verif.Model.Float
import Verif.Model.FloatAdd
import Verif.Model.FloatAddBucket
import Verif.Model.FloatBenchmark
import Verif.Model.FloatBucket
import Verif.Model.FloatExperiments
import Verif.Model.FloatMemory
import Verif.Model.FloatMetrics
import Verif.Model.FloatNsga
import Verif.Model.FloatOperators
import Verif.Model.FloatRelative
import Verif.Model.FloatRuntime
import Verif.Model.FloatSampling
import Verif.Model.Helper
import Verif.Model.Metrics
import Verif.Model.Nsga
import Verif.Model.Operators
import Verif.Model.Papers
import Verif.Model.Parsing
import Verif.Model.Print
import Verif.Model.PrintSampling
import Verif.Model.PrintTesting
import Verif.Model.RefCount
import Verif.Model.Relative
import Verif.Model.Strings
import Verif.Model.Testsuite
import Verif.Outcome
import Verif.Proofs.AbsDiff
import Verif.Proofs.AddErrors
import Verif.Proofs.AddMetrics
import Verif.Proofs.AdderMean
import Verif.Proofs.AdderSquare
import Verif.Proofs.AdderWorst
import Verif.Proofs.Adders
import Verif.Proofs.Arith
import Verif.Proofs.Average
import Verif.Proofs.Benchmark
import Verif.Proofs.BitVec
import Verif.Proofs.Bucket
import Verif.Proofs.Closure
import Verif.Proofs.Compare
import Verif.Proofs.Count
import Verif.Proofs.DotText
import Verif.Proofs.DumpDot
import Verif.Proofs.ErrorRate
import Verif.Proofs.Experiments
import Verif.Proofs.Float
import Verif.Proofs.FloatAdd
import Verif.Proofs.FloatAddBucket
import Verif.Proofs.FloatBenchmark
import Verif.Proofs.FloatBucket
import Verif.Proofs.FloatExperiments
import Verif.Proofs.FloatMemory
import Verif.Proofs.FloatMetrics
import Verif.Proofs.FloatNsga
import Verif.Proofs.FloatOperators
import Verif.Proofs.FloatOps
import Verif.Proofs.FloatRelative
import Verif.Proofs.FloatSampling
import Verif.Proofs.FloatSolutions
import Verif.Proofs.FloatTime
import Verif.Proofs.Helper
import Verif.Proofs.Max
import Verif.Proofs.Mean
import Verif.Proofs.MulFrac
import Verif.Proofs.Nodes
import Verif.Proofs.Nsga
import Verif.Proofs.OperatorBest
import Verif.Proofs.OperatorSem
import Verif.Proofs.Operators
import Verif.Proofs.Papers
import Verif.Proofs.Parsing
import Verif.Proofs.Paths
import Verif.Proofs.Print
import Verif.Proofs.PrintSampling
import Verif.Proofs.PrintTable
import Verif.Proofs.PrintTime
import Verif.Proofs.Prob
import Verif.Proofs.ProbEfficient
import Verif.Proofs.ProbSampling
import Verif.Proofs.ProbWalk
import Verif.Proofs.Range
import Verif.Proofs.RefCount
import Verif.Proofs.RefCountOps
import Verif.Proofs.RelSearch
import Verif.Proofs.Relative
import Verif.Proofs.ShiftMul
import Verif.Proofs.Size
import Verif.Proofs.Strings
import Verif.Proofs.Support
import Verif.Proofs.Testsuite
import Verif.Proofs.TestsuiteRates
import Verif.Proofs.Trail
import Verif.Props.Add
import Verif.Props.AdderErrors
import Verif.Props.AdderSquare
import Verif.Props.AdderTables
import Verif.Props.Adders
import Verif.Props.Arith
import Verif.Props.Average
import Verif.Props.BenchTables
import Verif.Props.Benchmark
import Verif.Props.Bucket
import Verif.Props.Closure
import Verif.Props.DotText
import Verif.Props.DumpDot
import Verif.Props.Experiments
import Verif.Props.Float
import Verif.Props.FloatAdd
import Verif.Props.FloatAddBucket
import Verif.Props.FloatBenchmark
import Verif.Props.FloatBucket
import Verif.Props.FloatExperiments
import Verif.Props.FloatHelper
import Verif.Props.FloatMemory
import Verif.Props.FloatMetrics
import Verif.Props.FloatNsga
import Verif.Props.FloatRelative
import Verif.Props.FloatRuntime
import Verif.Props.FloatSampling
import Verif.Props.FloatSolutions
import Verif.Props.FloatTime
import Verif.Props.Helper
import Verif.Props.Minimize
import Verif.Props.Nodes
import Verif.Props.Nsga
import Verif.Props.NsgaExperiments
import Verif.Props.Operators
import Verif.Props.Papers
import Verif.Props.Parsing
import Verif.Props.Print
import Verif.Props.PrintSampling
import Verif.Props.PrintTables
import Verif.Props.PrintTesting
import Verif.Props.Prob
import Verif.Props.ProbEfficient
import Verif.Props.Range
import Verif.Props.RefCount
import Verif.Props.Relative
import Verif.Props.Sampling
import Verif.Props.Size
import Verif.Props.Strings
import Verif.Props.Testing
import Verif.Props.Testsuite
import Verif.Props.Trail
import Verif.Props.WorstCase
import Verif.Spec
import Verif.SpecAdder
import Verif.SpecDot
import Verif.SpecExperiments
import Verif.SpecFloatAdd
import Verif.SpecFloatAddBucket
import Verif.SpecFloatMemory
import Verif.SpecMemory
import Verif.SpecPrint
import Verif.SpecProb
