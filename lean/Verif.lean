import Verif.Prop.CyclicBuffer
import Verif.Prop.Methods
import Verif.Prop.Options
import Verif.Prop.ErkReal
import Verif.Prop.ErkTerm
import Verif.Prop.ErkFsal
import Verif.Prop.ErkOrder
import Verif.Prop.ErkFP
import Verif.LUExists
import Verif.Prop.Newton
import Verif.Prop.Interp
import Verif.Prop.IrkReal
import Verif.Prop.IrkMethods
import Verif.Prop.IrkOrder
import Verif.Prop.IrkTerm
import Verif.Prop.Multistep
import Verif.Prop.TestEq
import Verif.Prop.MsLinear
import Verif.Prop.IrkAffine
import Verif.Prop.Stability
import Verif.Prop.StabilityProgram
import Verif.IrkSmall
import Verif.IrkLoop
import Verif.Prop.IrkTerminates
import Verif.Prop.IrkStiff
import Verif.Example
import Verif.Prop.Example
import Verif.Prop.NoUB
import Verif.Prop.ExampleRun
import Verif.Prop.IrkDecimal
import Verif.ErkGrowth
import Verif.Prop.ErkGrowth
import Verif.Prop.ExampleExplicit
import Verif.Butcher
import Verif.ButcherExact
import Verif.Converge
import Verif.ErkConverge
import Verif.ErkStepCount
import Verif.Prop.ErkConverge
import Verif.Prop.ErkStepCount
import Verif.ConvergeImplicit
import Verif.IrkNewton
import Verif.IrkConverge
import Verif.Prop.IrkConverge
import Verif.Prop.IrkExamples
import Verif.IrkComplete
import Verif.Prop.IrkComplete
import Verif.Prop.IrkSharp
import Verif.Prop.EqExamples
import Verif.ZeroStable
import Verif.NewtonConverge
import Verif.MsConverge
import Verif.Prop.MsConverge
import Verif.NewtonLocal
import Verif.Prop.NewtonLocal
import Verif.Prop.FPSpec
import Verif.Prop.FPSpecial
import Verif.Prop.IrkEstimate
import Verif.Prop.Defaults
import Verif.Broyden
import Verif.Prop.Broyden
import Verif.Prop.OutputOptions
import Verif.Prop.ExampleProblem
import Verif.StabilityAll
import Verif.StabilityGrid
import Verif.Prop.AStable
import Verif.Prop.StabilityFiles
import Verif.Prop.ThreeBody
import Verif.GammaEig
import Verif.Prop.Gamma
import Verif.FloatArith
import Verif.ErkFloat
import Verif.FloatInst
import Verif.Prop.ErkFloat
import Verif.Prop.ErkFPEnd
import Verif.Prop.ErkSymmetry
import Verif.Prop.BConverge
import Verif.Prop.BdfConverge
import Verif.Prop.IrkTolerance
import Verif.Prop.TestFunctors
import Verif.Prop.Timer
import Verif.Prop.ErkEnergy
import Verif.Prop.Local
import Verif.Prop.MsOrder
import Verif.Prop.ThreeBodyJac
import Verif.Prop.IrkSymmetry
import Verif.Prop.NonFinite
import Verif.Prop.NonFiniteI
import Verif.StageVariants
import Verif.Prop.StageVariants
import Verif.Prop.DenseOrder
import Verif.Prop.IrkEmbedded
import Verif.Prop.BdfLag
import Verif.Prop.Causal
import Verif.Prop.MsSymmetry
import Verif.Prop.Programs
import Verif.Prop.RepoTests
import Verif.Prop.Effects
import Verif.Prop.EffectsMs
import Verif.Prop.EffectsLog
import Verif.Prop.TwoRuns
import Verif.Prop.Restart
import Verif.Prop.MsFPGrid
import Verif.Prop.AbFloat
import Verif.Prop.BdfFloat
import Verif.Prop.IrkFloat
import Verif.Prop.IrkFP
import Verif.Prop.IrkEnergy
import Verif.Prop.ProgramsMore
import Verif.Prop.TableauFP
import Verif.Prop.PolyRhs
import Verif.Prop.PolyRuns
import Verif.ErkDrift
import Verif.AbDrift
import Verif.Prop.ErkDrift
import Verif.ErkSens
import Verif.Prop.ErkSens
import Verif.Prop.EulerPositive
import Verif.Prop.AbEuler
import Verif.ErkLinear
import Verif.Prop.ErkLinear
import Verif.Prop.ErkSuper
import Verif.Prop.EulerOrder
