import Verif.Props.Chain
import Verif.Props.Force
import Verif.Props.Core
import Verif.Props.Load
import Verif.Props.Systems
import Verif.Props.Conserve
import Verif.Props.Time
import Verif.Props.Reverse
import Verif.Props.Increment
import Verif.Props.Regu
import Verif.Props.Order
import Verif.Props.Simulator
import Verif.Props.Callbacks
import Verif.Props.BulirschStoer
import Verif.Props.BSConserve
import Verif.Props.BSFunction
import Verif.Props.BSFunctionSteps
import Verif.Props.StepControl
import Verif.Props.ErrorCheck
import Verif.Props.Sequent
import Verif.Props.GaussRadau
import Verif.Props.IAS15
import Verif.Props.RadauConserve
import Verif.Props.RadauEnd
import Verif.Props.Derivative
import Verif.Props.ChainDerivative
import Verif.Props.IASError
import Verif.Props.Kahan
import Verif.Props.Bisection
import Verif.Props.ParLoop
import Verif.Props.ThreadPool
import Verif.Props.ConcurrentFile
import Verif.Props.Opip
import Verif.Props.Ipip
import Verif.Props.Particles
import Verif.Props.Tools
import Verif.Props.Orbit
import Verif.Props.OrbitTime
import Verif.Props.Anomaly
import Verif.Props.OrbitMake
import Verif.Props.Period
import Verif.Props.Manip
import Verif.Props.Scattering
import Verif.Props.ClusterTime
import Verif.Props.Random
import Verif.Props.Magneto
import Verif.Props.MagnetoForce
import Verif.Props.Misc
import Verif.Props.Friction
import Verif.Props.TwoBody
import Verif.Props.Symplectic
import Verif.Props.Clock
import Verif.Props.Converge
import Verif.Props.ConvergeRegu
import Verif.Props.ConvergeReguOrder
import Verif.Props.ConvergeOrder
import Verif.Props.ConvergeBS
import Verif.Props.ConvergeBSRegu
import Verif.Props.BSSmall
import Verif.Props.BSChain
import Verif.Props.ConvergeIAS15
import Verif.Props.IAS15Small
import Verif.Props.Lazy
import Verif.Props.BSParallel
import Verif.Props.Forced
import Verif.Props.ForcedBS
import Verif.Props.BSTries
import Verif.Props.ConvergeIAS15Sys
import Verif.Props.ConvergeIAS15Regu
import Verif.Props.IAS15Runs
import Verif.Props.IAS15RunsAR
import Verif.Props.IAS15RunsForced
import Verif.Props.ForcedRegu
import Verif.Props.ForcedReguBS
import Verif.Props.BSRuns
import Verif.Props.BSReaches
import Verif.Props.SmallVector
import Verif.Props.SmallVectorAlias
import Verif.Props.SmallVectorGrowth
import Verif.Props.LogHForces
import Verif.Props.RadauChainConserve
import Verif.Props.IAS15Starts
import Verif.Props.Units
import Verif.Props.RoundedRun
import Verif.Props.RoundedKahan
import Verif.Props.Digits
import Verif.Props.RoundedChain
import Verif.Props.RoundedRegu
import Verif.Props.RoundedAR
import Verif.Props.RoundedBS
import Verif.Props.RoundedEnergy
import Verif.Props.RoundedEnergyChain
import Verif.Props.RoundedForces
