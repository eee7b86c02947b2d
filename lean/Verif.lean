import Verif.Model.AlsLoop
import Verif.Model.Bench
import Verif.Model.Build
import Verif.Model.CPOpt
import Verif.Model.Common
import Verif.Model.Cost
import Verif.Model.CostLegacy
import Verif.Model.Ctf
import Verif.Model.DT
import Verif.Model.Decomp
import Verif.Model.Generators
import Verif.Model.Ieee
import Verif.Model.Keys
import Verif.Model.KhatriRao
import Verif.Model.Legacy
import Verif.Model.LegacyLoop
import Verif.Model.LogFile
import Verif.Model.LowRank
import Verif.Model.Main
import Verif.Model.Ownership
import Verif.Model.PP
import Verif.Model.PPDriver
import Verif.Model.PPPart
import Verif.Model.PartDriver
import Verif.Model.Problem
import Verif.Model.Round
import Verif.Model.RoundAls
import Verif.Model.RoundPP
import Verif.Model.RoundTucker
import Verif.Model.Run
import Verif.Model.RunMain
import Verif.Model.Solve
import Verif.Model.Spmd
import Verif.Model.SpmdLegacy
import Verif.Model.SweepCounter
import Verif.Model.TuckPP
import Verif.Model.Tucker
import Verif.Proofs.AlsCP
import Verif.Proofs.AlsLoop
import Verif.Proofs.ApplyRankR
import Verif.Proofs.Bench
import Verif.Proofs.Build
import Verif.Proofs.CPOpt
import Verif.Proofs.Collinearity
import Verif.Proofs.Contract
import Verif.Proofs.Contract2
import Verif.Proofs.Converge
import Verif.Proofs.ConvergeLimit
import Verif.Proofs.Cost
import Verif.Proofs.CostLegacy
import Verif.Proofs.CostLegacyCp
import Verif.Proofs.CostLegacySums
import Verif.Proofs.CostLegacySweep
import Verif.Proofs.CostLegacyTree
import Verif.Proofs.CostPP
import Verif.Proofs.CostRuns
import Verif.Proofs.CostSimple
import Verif.Proofs.CostSteps
import Verif.Proofs.CostTree
import Verif.Proofs.CostTucker
import Verif.Proofs.CostTuckerDT
import Verif.Proofs.CostTuckerSums
import Verif.Proofs.Ctf
import Verif.Proofs.DT
import Verif.Proofs.DTLR
import Verif.Proofs.DTSteps
import Verif.Proofs.DTTree
import Verif.Proofs.Double
import Verif.Proofs.EckartYoung
import Verif.Proofs.Fixed
import Verif.Proofs.FullRank
import Verif.Proofs.GaussSeidel
import Verif.Proofs.GenCol
import Verif.Proofs.Generators
import Verif.Proofs.GradShape
import Verif.Proofs.Hooi
import Verif.Proofs.HooiNear
import Verif.Proofs.HooiSweep
import Verif.Proofs.Hosvd
import Verif.Proofs.Ieee
import Verif.Proofs.KRProduct
import Verif.Proofs.Kernels
import Verif.Proofs.KhatriRao
import Verif.Proofs.KyFan
import Verif.Proofs.KyFanNear
import Verif.Proofs.Laplacian
import Verif.Proofs.Legacy
import Verif.Proofs.LegacyLoop
import Verif.Proofs.LegacySweep
import Verif.Proofs.LegacyTree
import Verif.Proofs.LogFile
import Verif.Proofs.Loop
import Verif.Proofs.LowRank
import Verif.Proofs.LowRankBest
import Verif.Proofs.LowRankSteps
import Verif.Proofs.MSDTLR
import Verif.Proofs.Monotone
import Verif.Proofs.Normalize
import Verif.Proofs.Objective
import Verif.Proofs.Ownership
import Verif.Proofs.PP
import Verif.Proofs.PPDriver
import Verif.Proofs.PPDriverCP
import Verif.Proofs.PPDriverT
import Verif.Proofs.PPDriverTuck
import Verif.Proofs.PPError
import Verif.Proofs.PPGuard
import Verif.Proofs.PPPart
import Verif.Proofs.PPSpec
import Verif.Proofs.PPUpdate
import Verif.Proofs.PartDriver
import Verif.Proofs.RankR
import Verif.Proofs.RankRSvd
import Verif.Proofs.Round
import Verif.Proofs.RoundBuild
import Verif.Proofs.RoundDT
import Verif.Proofs.RoundGrad
import Verif.Proofs.RoundLegacy
import Verif.Proofs.RoundObjective
import Verif.Proofs.RoundPP
import Verif.Proofs.RoundRun
import Verif.Proofs.RoundSteps
import Verif.Proofs.RoundTucker
import Verif.Proofs.RoundTuckerPP
import Verif.Proofs.RoundTuckerRun
import Verif.Proofs.RoundTuckerSweep
import Verif.Proofs.RoundUpd
import Verif.Proofs.Sim
import Verif.Proofs.Solvable
import Verif.Proofs.Solve
import Verif.Proofs.Span
import Verif.Proofs.SpanRot
import Verif.Proofs.SpecLemmas
import Verif.Proofs.SpmdLegacy
import Verif.Proofs.SpmdRows
import Verif.Proofs.SymLegacy
import Verif.Proofs.Symmetry
import Verif.Proofs.TuckLoop
import Verif.Proofs.Tucker
import Verif.Proofs.TuckerPP
import Verif.Proofs.TuckerPPSweep
import Verif.Proofs.TuckerSign
import Verif.Proofs.TuckerSweep
import Verif.Proofs.TuckerTree
import Verif.Proofs.TuckerTtmc
import Verif.Proofs.TuckerUnroll
import Verif.Proofs.Valid
import Verif.Properties.Again
import Verif.Properties.AlsLoop
import Verif.Properties.BadInput
import Verif.Properties.BadOrder
import Verif.Properties.Bench
import Verif.Properties.BenchTuck
import Verif.Properties.Build
import Verif.Properties.Common
import Verif.Properties.Converge
import Verif.Properties.Decomp
import Verif.Properties.Direct
import Verif.Properties.DirectCalls
import Verif.Properties.Fixed
import Verif.Properties.FixedLR
import Verif.Properties.FullRank
import Verif.Properties.FullRankDT
import Verif.Properties.Generators
import Verif.Properties.Hooi
import Verif.Properties.Hosvd
import Verif.Properties.Ieee
import Verif.Properties.Interchange
import Verif.Properties.Keys
import Verif.Properties.Legacy
import Verif.Properties.LegacyLoop
import Verif.Properties.LogFile
import Verif.Properties.LowRank
import Verif.Properties.LowRankBest
import Verif.Properties.LowRankGrad
import Verif.Properties.Main
import Verif.Properties.MainNeg
import Verif.Properties.MainTensor
import Verif.Properties.MemoryLegacy
import Verif.Properties.Objective
import Verif.Properties.Ownership
import Verif.Properties.PP
import Verif.Properties.PPDriver
import Verif.Properties.PPError
import Verif.Properties.PPGuard
import Verif.Properties.PPMonotone
import Verif.Properties.PPPart
import Verif.Properties.PPPartOrder
import Verif.Properties.PPSweep
import Verif.Properties.PartDriver
import Verif.Properties.QuietMain
import Verif.Properties.QuietPP
import Verif.Properties.QuietTuck
import Verif.Properties.QuietTuckUntil
import Verif.Properties.RankRSvd
import Verif.Properties.Round
import Verif.Properties.RoundAls
import Verif.Properties.RoundHosvd
import Verif.Properties.RoundObjective
import Verif.Properties.RoundPP
import Verif.Properties.RoundTucker
import Verif.Properties.Run
import Verif.Properties.RunMain
import Verif.Properties.RunMatrix
import Verif.Properties.Session
import Verif.Properties.Solve
import Verif.Properties.Span
import Verif.Properties.SpanRot
import Verif.Properties.Spmd
import Verif.Properties.SpmdLegacy
import Verif.Properties.SweepCounter
import Verif.Properties.SymLegacy
import Verif.Properties.Symmetry
import Verif.Properties.Trees
import Verif.Properties.TuckConverge
import Verif.Properties.TuckLoop
import Verif.Properties.TuckPP
import Verif.Properties.TuckTol
import Verif.Properties.Tucker
import Verif.Properties.TuckerPP
import Verif.Properties.Witness1
import Verif.Properties.Witness2
import Verif.Properties.Witness3
import Verif.Properties.Witness4
import Verif.Properties.Witness5
import Verif.Properties.Witness6
import Verif.Properties.Work
import Verif.Properties.WorkLegacy
import Verif.Spec.Als
import Verif.Spec.Common
import Verif.Spec.Double
import Verif.Spec.Generators
import Verif.Spec.Log
import Verif.Spec.LowRank
import Verif.Spec.Objective
import Verif.Spec.Options
import Verif.Spec.PP
import Verif.Spec.PPError
import Verif.Spec.Round
import Verif.Spec.RoundObjective
import Verif.Spec.RoundPP
import Verif.Spec.Run
import Verif.Spec.Span
import Verif.Spec.Symmetry
import Verif.Spec.Tensor
import Verif.Spec.Tucker
import Verif.Spec.Work
