import Verif.Props.Shooting
import Verif.Props.ShootingEval
import Verif.Props.CostSum
import Verif.Props.Constraints
import Verif.Props.Contacts
import Verif.Props.Cast
import Verif.Props.SolverBase
import Verif.Props.Solve
import Verif.Props.Kkt
import Verif.Props.Lq
import Verif.Props.LqSolve
import Verif.Props.BoxQp
import Verif.Props.Controls
import Verif.Props.StateVector
import Verif.Props.Integrators
import Verif.Props.Activations
import Verif.Props.Bounds
import Verif.Props.LqrAction
import Verif.Props.Unicycle
import Verif.Props.NumDiff
import Verif.Props.ResidualCost
import Verif.Props.Cones
import Verif.Props.Actuation
import Verif.Props.Thrusters
import Verif.Props.Ipopt
import Verif.Props.IpoptEval
import Verif.Props.Gaits
import Verif.Props.Intro
import Verif.Props.IntroSolve
import Verif.Props.NumDiffMore
import Verif.Props.FwdDyn
import Verif.Props.InvDyn
import Verif.Props.ContactFrame
import Verif.Props.FrameRes
import Verif.Props.ForceRes
import Verif.Props.JointRes
import Verif.Props.Fresh
import Verif.Props.CodeGen
import Verif.Props.CodeGenDiff
import Verif.Props.CodeGenLoad
import Verif.Props.QuasiStatic
import Verif.Props.Limits
import Verif.Props.StateMultibody
import Verif.Props.IntegratorsManifold
import Verif.Props.LqFddp
import Verif.Props.NumDiffDiff
import Verif.Props.NumDiffContact
import Verif.Props.Nl
import Verif.Props.Stopwatch
import Verif.Props.PairCollision
import Verif.Props.KktSystem
import Verif.Props.SolveGaps
import Verif.Props.IpoptSolve
import Verif.Props.CsvStream
import Verif.Props.Version
import Verif.Props.Verbose
import Verif.Props.Threads
import Verif.Props.PyWrap
import Verif.Props.CheckData
import Verif.Props.PyAttrs
import Verif.Props.PyContainers
import Verif.Props.Forget
import Verif.Props.SolverMem
import Verif.Props.DataCopy
import Verif.Props.Policy
import Verif.Props.Finite
import Verif.Props.Tail
import Verif.Props.ForgetKkt
import Verif.Props.Reformulate
import Verif.Props.Prox
import Verif.Props.BoxLq
import Verif.Props.IntroLq
import Verif.Props.Agree
import Verif.Props.ContactStack
import Verif.Props.ImpulseStack
import Verif.Props.Converge
import Verif.Props.BoxNl
import Verif.Props.Ends
import Verif.Props.Node
import Verif.Props.FlatZero
import Verif.Props.Success
import Verif.Props.BigReg
import Verif.Props.Returns
import Verif.Props.BoxInterior
import Verif.Props.BoxOvershoot
import Verif.Props.BoxReformulate
import Verif.Props.KktReformulate
import Verif.Props.IntroReformulate
import Verif.Props.IpoptForget
import Verif.Props.IpoptLife
import Verif.Props.IpoptReformulate
import Verif.Axioms
