import Verif.Model.Res
import Verif.Props.Cache
import Verif.Props.IntParam
import Verif.Props.DblParam
import Verif.Props.ArrParam
import Verif.Props.Composite
import Verif.Lemmas.Composite
import Verif.Props.Heap
import Verif.Props.HeapComp
import Verif.Props.Random
import Verif.Props.Mutator
import Verif.Props.Individual
import Verif.Props.GA
import Verif.Props.GAExamples
import Verif.Props.Text
import Verif.Props.ThreadPool
import Verif.Props.Queue
import Verif.Props.Meta
import Verif.Props.Parallel
import Verif.Props.MpiPool
import Verif.Props.Transfer
import Verif.Props.Settings
import Verif.Props.FloatingPoint
import Verif.Props.Processors
import Verif.Props.Continuous
import Verif.Props.Search
import Verif.Props.HookeJeeves
import Verif.Props.NelderMead
import Verif.Props.Rosenbrock
import Verif.Props.RoundRandom
import Verif.Props.RoundGA
import Verif.Props.GAProgress
import Verif.Props.Dsp
import Verif.Props.Wavelet
import Verif.Props.Akima
import Verif.Props.Cwt
import Verif.Props.WaveletFn
import Verif.Props.SteepestDescent
import Verif.Props.ConjugateGradient
import Verif.Model.GAStats
import Verif.Lemmas.GAStats
import Verif.Props.GAStats
import Verif.Props.GAStatsExamples
import Verif.Model.RandomWrap
import Verif.Props.RandomWrap
import Verif.Model.GradientProg
import Verif.Lemmas.GradientProg
import Verif.Props.GradientProg
import Verif.Model.Tasks
import Verif.Props.Tasks
import Verif.Model.MpiLife
import Verif.Props.MpiLife
import Verif.Props.MpiHang
import Verif.Spec.Ieee
import Verif.Spec.Rounding
import Verif.Props.NanSelect
import Verif.Props.NanHooke
import Verif.Props.NanNelder
import Verif.Props.NanGA
import Verif.Props.NanAnnealing
import Verif.Props.AnnealingAgree
import Verif.Props.RoundParam
import Verif.Props.RoundArr
import Verif.Props.WaveletObj
import Verif.Props.RoundMutator
import Verif.Props.RoundGrid
import Verif.Props.RoundFlip
import Verif.Props.RoundScale
import Verif.Props.RoundCwt
import Verif.Props.RoundConv
import Verif.Props.RoundFourier
import Verif.Props.RoundGolden
import Verif.Props.RoundAkima
import Verif.Props.RoundSampled
import Verif.Props.RoundBuild
import Verif.Props.IeeeSteepest
import Verif.Props.IeeeExact
import Verif.Props.IeeeConjugate
import Verif.Props.IeeeHooke
import Verif.Props.IeeeNelder
import Verif.Model.IeeeRosenbrock
import Verif.Props.IeeeRosenbrock
import Verif.Props.IeeeRosenbrockStep
import Verif.Model.ExampleFns
import Verif.Props.ExampleFns
import Verif.Props.ExampleTester
import Verif.Props.ExampleMain
import Verif.Props.IndividualObj
import Verif.Model.ExampleGA
import Verif.Props.ExampleGA
import Verif.Model.MpiBlocking
import Verif.Props.MpiBlocking
import Verif.Model.FftThreads
import Verif.Props.FftThreads
import Verif.Props.FwtThreads
import Verif.Model.FftLife
import Verif.Props.FftLife
import Verif.Model.SharedFn
import Verif.Props.SharedFn
import Verif.Model.Cplx
import Verif.Lemmas.RoundSum
import Verif.Props.CountPools
import Verif.Props.StartPools
import Verif.Model.GAObj
import Verif.Lemmas.GAObj
import Verif.Props.GAObj
import Verif.Props.GAObjRun
import Verif.Props.GAObjExamples
import Verif.Model.CompObj
import Verif.Lemmas.CompObj
import Verif.Props.CompObj
import Verif.Props.CompObjExamples
