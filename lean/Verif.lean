import Verif.Props.ActiveSets
import Verif.Props.Affine
import Verif.Props.Arena
import Verif.Props.BlkObj
import Verif.Props.BlockTridiag
import Verif.Props.Blocks
import Verif.Props.BunchKaufman
import Verif.Props.Centroidal
import Verif.Props.ConstrainedRnea
import Verif.Props.ConstraintSets
import Verif.Props.ContactForce
import Verif.Props.CostStack
import Verif.Props.Crocoddyl
import Verif.Props.Cycle
import Verif.Props.DataObjects
import Verif.Props.DenseMem
import Verif.Props.DenseRiccati
import Verif.Props.EvalData
import Verif.Props.FDDP
import Verif.Props.FDDPLQ
import Verif.Props.FDDPMem
import Verif.Props.FDDPMemBounds
import Verif.Props.FDDPPasses
import Verif.Props.Filter
import Verif.Props.FiniteDiff
import Verif.Props.FloatArith
import Verif.Props.Gains
import Verif.Props.GetWork
import Verif.Props.Integrators
import Verif.Props.Kinodynamics
import Verif.Props.LQSubproblem
import Verif.Props.Lagrangian
import Verif.Props.Linesearch
import Verif.Props.Logger
import Verif.Props.LqrObjects
import Verif.Props.LqrObjectsProblem
import Verif.Props.LqrUtils
import Verif.Props.Malloc
import Verif.Props.ManifoldArgs
import Verif.Props.ManifoldIntegrators
import Verif.Props.Manifolds
import Verif.Props.MomentumRate
import Verif.Props.Multibody
import Verif.Props.MultibodyDynamics
import Verif.Props.MultibodyWrong
import Verif.Props.NonlinearRollout
import Verif.Props.NonlinearRun
import Verif.Props.Parallel
import Verif.Props.ParallelMem
import Verif.Props.Polymorphic
import Verif.Props.ProblemData
import Verif.Props.ProblemDataUntouched
import Verif.Props.ProblemObj
import Verif.Props.ProxDDP
import Verif.Props.ProxDDPSchedule
import Verif.Props.ProxMem
import Verif.Props.PyObj
import Verif.Props.PyView
import Verif.Props.QViews
import Verif.Props.QuadCosts
import Verif.Props.Registries
import Verif.Props.Reuse
import Verif.Props.ReuseCalls
import Verif.Props.ReuseFDDP
import Verif.Props.ReuseFDDPLink
import Verif.Props.ReuseLink
import Verif.Props.ReuseSettings
import Verif.Props.ReuseWitness
import Verif.Props.Riccati
import Verif.Props.RiccatiMem
import Verif.Props.Rollout
import Verif.Props.Schedule
import Verif.Props.SetObjects
import Verif.Props.Settings
import Verif.Props.Solver
import Verif.Props.SolverEq
import Verif.Props.SolverEqBound
import Verif.Props.SolverEqFeasible
import Verif.Props.SolverEqWit
import Verif.Props.SolverIneq
import Verif.Props.SolverIneqBound
import Verif.Props.SolverIneqRun
import Verif.Props.SolverIneqRunWit
import Verif.Props.SolverIneqWit
import Verif.Props.SolverLQ
import Verif.Props.SolverLQFeasible
import Verif.Props.SolverModes
import Verif.Props.SolverSets
import Verif.Props.TolRounding
import Verif.Props.Tracking
import Verif.Props.TrajOptProblem
import Verif.Props.Wrappers
import Verif.Axioms
