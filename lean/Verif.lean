import Verif.Model.Arguments
import Verif.Model.Base
import Verif.Model.Buffer
import Verif.Model.Construct
import Verif.Model.Events
import Verif.Model.InitialStep
import Verif.Model.Memory
import Verif.Model.Methods
import Verif.Model.NumbaSub
import Verif.Model.Registry
import Verif.Model.Solver
import Verif.Model.Tableaux
import Verif.Model.Util
import Verif.Model.World
import Verif.Model.Zeros
import Verif.Proofs.Adaptive
import Verif.Proofs.Arguments
import Verif.Proofs.Bisect
import Verif.Proofs.Change
import Verif.Proofs.Clock
import Verif.Proofs.Construct
import Verif.Proofs.Contraction
import Verif.Proofs.Convergence
import Verif.Proofs.DefaultStart
import Verif.Proofs.Dense
import Verif.Proofs.DenseInit
import Verif.Proofs.DenseMethod
import Verif.Proofs.DenseOrder
import Verif.Proofs.DenseTrees
import Verif.Proofs.Dict
import Verif.Proofs.Dissipative
import Verif.Proofs.Domain
import Verif.Proofs.Ends
import Verif.Proofs.EventError
import Verif.Proofs.EventTolerance
import Verif.Proofs.Events
import Verif.Proofs.EventsApi
import Verif.Proofs.EventsIndependent
import Verif.Proofs.EventsRun
import Verif.Proofs.EventsTotal
import Verif.Proofs.Failures
import Verif.Proofs.Fits
import Verif.Proofs.FloatDemo
import Verif.Proofs.Floats
import Verif.Proofs.Forward
import Verif.Proofs.Halting
import Verif.Proofs.HaltingGrowth
import Verif.Proofs.HaltingVar
import Verif.Proofs.Hanging
import Verif.Proofs.History
import Verif.Proofs.Invariant
import Verif.Proofs.LinearStages
import Verif.Proofs.LocalError
import Verif.Proofs.LocalErrorApprox
import Verif.Proofs.Loops
import Verif.Proofs.Memory
import Verif.Proofs.MethodShape
import Verif.Proofs.Multistep
import Verif.Proofs.MultistepEvents
import Verif.Proofs.MultistepPath
import Verif.Proofs.MultistepRun
import Verif.Proofs.Newton
import Verif.Proofs.Polynomials
import Verif.Proofs.PyLemmas
import Verif.Proofs.Quadrature
import Verif.Proofs.Quiet
import Verif.Proofs.Records
import Verif.Proofs.Registry
import Verif.Proofs.RegistryInv
import Verif.Proofs.Relate
import Verif.Proofs.RelateCorr
import Verif.Proofs.RelateInit
import Verif.Proofs.RelateMethods
import Verif.Proofs.RelateObserve
import Verif.Proofs.Restart
import Verif.Proofs.Resume
import Verif.Proofs.Roots
import Verif.Proofs.RootsHd
import Verif.Proofs.Rounded
import Verif.Proofs.RoundedBisect
import Verif.Proofs.RoundedCalc
import Verif.Proofs.RoundedConvergence
import Verif.Proofs.RoundedStages
import Verif.Proofs.RoundedTotal
import Verif.Proofs.Run
import Verif.Proofs.RunConverges
import Verif.Proofs.RunSorted
import Verif.Proofs.RunStates
import Verif.Proofs.SciPy
import Verif.Proofs.Secant
import Verif.Proofs.Sharp
import Verif.Proofs.SharpLinear
import Verif.Proofs.Simulate
import Verif.Proofs.Sorting
import Verif.Proofs.Stability
import Verif.Proofs.StableFormulas
import Verif.Proofs.Stages
import Verif.Proofs.StepApi
import Verif.Proofs.Stiff
import Verif.Proofs.Tolerance
import Verif.Proofs.Trail
import Verif.Proofs.TreeConditions
import Verif.Proofs.TreeDop
import Verif.Proofs.TreeList
import Verif.Proofs.Trees
import Verif.Proofs.TreesRK
import Verif.Proofs.Truncation
import Verif.Proofs.TwoStep
import Verif.Proofs.Units
import Verif.Proofs.Work
import Verif.Proofs.ZeroStability
import Verif.Props.Adaptive
import Verif.Props.AfterEnd
import Verif.Props.AfterFailure
import Verif.Props.Arguments
import Verif.Props.BadStep
import Verif.Props.BlowUp
import Verif.Props.Change
import Verif.Props.Clock
import Verif.Props.ClockDemo
import Verif.Props.Comparison
import Verif.Props.Controller
import Verif.Props.Convergence
import Verif.Props.Crossing
import Verif.Props.DefaultStart
import Verif.Props.Demo
import Verif.Props.DenseOutput
import Verif.Props.Dict
import Verif.Props.Dissipative
import Verif.Props.Domain
import Verif.Props.Equilibria
import Verif.Props.EventDemo
import Verif.Props.EventError
import Verif.Props.EventSearch
import Verif.Props.EventTolerance
import Verif.Props.Events
import Verif.Props.EventsIndependent
import Verif.Props.Failures
import Verif.Props.Grid
import Verif.Props.Hermite
import Verif.Props.History
import Verif.Props.Implicit
import Verif.Props.ImplicitScalar
import Verif.Props.ImplicitSuccess
import Verif.Props.InitialStep
import Verif.Props.Invariant
import Verif.Props.InvariantImplicit
import Verif.Props.LocalError
import Verif.Props.LocalErrorDop
import Verif.Props.Memory
import Verif.Props.MissedEvents
import Verif.Props.MultistepConvergence
import Verif.Props.MultistepEvents
import Verif.Props.MultistepOrders
import Verif.Props.MultistepRun
import Verif.Props.MultistepStart
import Verif.Props.Nearby
import Verif.Props.NearbyMultistep
import Verif.Props.NotANumber
import Verif.Props.NumbaSub
import Verif.Props.Options
import Verif.Props.Orders
import Verif.Props.Parts
import Verif.Props.PartsDemo
import Verif.Props.Polynomials
import Verif.Props.Quiet
import Verif.Props.RealLib
import Verif.Props.Regions
import Verif.Props.Registry
import Verif.Props.RegistryDemo
import Verif.Props.RegistryList
import Verif.Props.Restart
import Verif.Props.Resume
import Verif.Props.Roots
import Verif.Props.Rounded
import Verif.Props.RoundedClock
import Verif.Props.RoundedError
import Verif.Props.RoundedEvents
import Verif.Props.RoundedSearch
import Verif.Props.Run
import Verif.Props.RunError
import Verif.Props.RunLeaves
import Verif.Props.RunStates
import Verif.Props.RungeKutta
import Verif.Props.SciPy
import Verif.Props.SciPyDemo
import Verif.Props.SpeedLimit
import Verif.Props.Stability
import Verif.Props.StartOrder
import Verif.Props.Startup
import Verif.Props.Stepping
import Verif.Props.Stiff
import Verif.Props.Stop
import Verif.Props.Superposition
import Verif.Props.Terminal
import Verif.Props.Termination
import Verif.Props.Tolerance
import Verif.Props.ToleranceLinear
import Verif.Props.TwoStep
import Verif.Props.Uninitialised
import Verif.Props.Units
import Verif.Props.VarDemo
import Verif.Props.Watching
import Verif.Props.Work
import Verif.Props.World
import Verif.Props.Zeros
import Verif.Spec.Adaptive
import Verif.Spec.AfterFailure
import Verif.Spec.Answers
import Verif.Spec.Arguments
import Verif.Spec.Change
import Verif.Spec.Clock
import Verif.Spec.Comparison
import Verif.Spec.Construct
import Verif.Spec.Controller
import Verif.Spec.Crossing
import Verif.Spec.DefaultStart
import Verif.Spec.Dense
import Verif.Spec.Dict
import Verif.Spec.Dissipative
import Verif.Spec.Domain
import Verif.Spec.Equilibria
import Verif.Spec.EventError
import Verif.Spec.EventTolerance
import Verif.Spec.Events
import Verif.Spec.Failure
import Verif.Spec.History
import Verif.Spec.InitialStep
import Verif.Spec.Invariant
import Verif.Spec.LocalError
import Verif.Spec.Memory
import Verif.Spec.Methods
import Verif.Spec.Multistep
import Verif.Spec.MultistepError
import Verif.Spec.MultistepEvents
import Verif.Spec.MultistepRun
import Verif.Spec.Nearby
import Verif.Spec.NotANumber
import Verif.Spec.Orders
import Verif.Spec.Parts
import Verif.Spec.Polynomials
import Verif.Spec.Quiet
import Verif.Spec.Regions
import Verif.Spec.Registry
import Verif.Spec.Restart
import Verif.Spec.Resume
import Verif.Spec.Roots
import Verif.Spec.Rounded
import Verif.Spec.RoundedError
import Verif.Spec.RoundedSearch
import Verif.Spec.Run
import Verif.Spec.RunError
import Verif.Spec.RungeKutta
import Verif.Spec.SciPy
import Verif.Spec.SpeedLimit
import Verif.Spec.Stability
import Verif.Spec.Stepping
import Verif.Spec.Stiff
import Verif.Spec.Superposition
import Verif.Spec.Termination
import Verif.Spec.Tolerance
import Verif.Spec.Trees
import Verif.Spec.TwoStep
import Verif.Spec.Units
import Verif.Spec.Work
import Verif.Spec.World
import Verif.Spec.Zeros
