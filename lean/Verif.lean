import Verif.Props.Assign
import Verif.Props.Spmd
import Verif.Props.Reductions
import Verif.Props.Parallel
import Verif.Props.VectorSpace
import Verif.Props.Handles
import Verif.Props.Text
import Verif.Props.Signals
import Verif.Props.Hankel
import Verif.Props.Lists
import Verif.Props.Trapz
import Verif.Props.Derivs
import Verif.Props.Memory
import Verif.Props.Era
import Verif.Props.Linalg
import Verif.Props.Arrays
import Verif.Props.HandlesLA
import Verif.Props.Pod
import Verif.Props.Bpod
import Verif.Props.EraModel
import Verif.Props.Galerkin
import Verif.Props.Dmd
import Verif.Props.DmdHandles
import Verif.Props.Tlsqr
import Verif.Props.TlsqrLimits
import Verif.Props.TlsqrHandles
import Verif.Props.Okid
import Verif.Props.Balanced
import Verif.Props.Systems
import Verif.Props.Sanity
import Verif.Props.Decomp
import Verif.Props.PodObjects
import Verif.Props.EraBpod
import Verif.Props.Identification
import Verif.Props.Equality
import Verif.Props.Shared
import Verif.Props.SingleArrays
import Verif.Props.Approx
import Verif.Props.Hermite
import Verif.Props.HermiteRoots
import Verif.Props.Optimal
import Verif.Props.LeastSquares
import Verif.Props.TlsqrBest
import Verif.Props.HankelBest
import Verif.Props.Cgl
import Verif.Props.CglModel
import Verif.Props.CglScript
import Verif.Props.Calls
import Verif.Props.Estimates
import Verif.Props.Stability
import Verif.Props.BalancedUnstable
import Verif.Props.AssignFloat
import Verif.Props.Rounding
import Verif.Props.Stages
import Verif.Props.StagesDmd
import Verif.Props.WorstCase
import Verif.Props.Tutorials
import Verif.Props.Failing
import Verif.Props.StagesGalerkin
import Verif.Props.StagesFiles
import Verif.Props.Stopping
import Verif.Props.VecObjects
import Verif.Props.RankMemory
import Verif.Props.Nearest
import Verif.Props.ApproxDmd
import Verif.Props.Startup
import Verif.Props.ApproxTls
import Verif.Props.Coordinates
import Verif.Props.Determined
import Verif.Props.DeterminedDmd
import Verif.Props.DeterminedDmdHandles
import Verif.Props.Lengths
import Verif.Props.DeterminedBpod
import Verif.Props.DeterminedEra
import Verif.Props.Progress
import Verif.Props.OkidUnits
import Verif.Props.Methods
import Verif.Props.MethodsHandles
import Verif.Props.MethodsTls
import Verif.Props.MethodsTlsHandles
import Verif.Props.DeterminedTls
import Verif.Props.DeterminedTlsHandles
import Verif.Props.ProgressSymm
import Verif.Props.Messages
import Verif.Props.HandlesFail
import Verif.Props.ApproxSeq
import Verif.Props.CoordinatesDirect
import Verif.Props.GalerkinStop
import Verif.Props.StoppingDmd
import Verif.Props.ModelError
import Verif.Props.ModelErrorLower
import Verif.Props.MaxNum
import Verif.Props.ApproxDirect
import Verif.Props.RealData
import Verif.Props.RealSystems
import Verif.Props.RealTls
import Verif.Props.Arguments
import Verif.Props.ModeIndices
import Verif.Props.ModeIndicesHandles
import Verif.Props.BalancedComplex
import Verif.Props.Corner
import Verif.Props.Predict
import Verif.Props.Helpers
import Verif.Props.Uniform
import Verif.Props.Again
import Verif.Props.Wide
import Verif.Props.WideDmd
import Verif.Props.WideTls
import Verif.Props.WideSystems
import Verif.Props.Constraints
import Verif.Props.Continuity
import Verif.Props.NearlyBest
import Verif.Props.PredictTls
import Verif.Props.EraBpodHandles
import Verif.Props.ModelErrorHandles
import Verif.Props.TlsqrFullHandles
import Verif.Props.ContinuityEra
import Verif.Props.FirstMarkov
import Verif.Props.ModesFound
import Verif.Props.ErrorExamples
import Verif.Props.JointValues
import Verif.Props.Growth
import Verif.Props.Duality
import Verif.Props.DualModel
import Verif.Props.PredictionGrowth
import Verif.Props.TlsPredictionGrowth
import Verif.Props.SymmetryKept
import Verif.Props.GalerkinDual
import Verif.Props.BalancedDual
import Verif.Props.BalancedCoordinates
import Verif.Props.GalerkinSpan
import Verif.Props.ShiftedData
import Verif.Props.MatchedResponses
import Verif.Props.GrowthFound
import Verif.Props.ReducedAgain
import Verif.Props.ModesOfModel
import Verif.Props.SelfAdjointPod
import Verif.Props.SymmetricModel
