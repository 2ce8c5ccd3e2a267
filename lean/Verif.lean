import Verif.Base.Err
import Verif.Lemmas.Spatial
import Verif.Props.Joint
import Verif.Props.JointDeriv
import Verif.Props.MultiBody
import Verif.Props.Config
import Verif.Props.Kinematics
import Verif.Props.Dynamics
import Verif.Props.DynDeriv
import Verif.Props.IDIM
import Verif.Props.Jacobian
import Verif.Props.JacRel
import Verif.Props.JacRelDot
import Verif.Props.Coriolis
import Verif.Props.CoM
import Verif.Props.Momentum
import Verif.Props.Graph
import Verif.Props.GraphMake
import Verif.Props.GraphFK
import Verif.Props.GraphRemove
import Verif.Props.GraphMerge
import Verif.Props.GraphCopy
import Verif.Props.GraphFix
import Verif.Props.Integration
import Verif.Props.IntegrationExact
import Verif.Props.Magnus
import Verif.Props.ZMP
import Verif.Props.VisServo
import Verif.Props.IK
import Verif.Model.Parsers
import Verif.Props.Parsers
import Verif.Props.Readers
import Verif.Props.RoundTrip
import Verif.Props.Checked
import Verif.Lemmas.SafeMore
import Verif.Props.CheckedMore
import Verif.Model.IS
import Verif.Lemmas.IS
import Verif.Lemmas.ISDeriv
import Verif.Props.IS
import Verif.Lemmas.JacVec
import Verif.Props.JacVec
import Verif.Lemmas.SubMB
import Verif.Props.SubMB
import Verif.Model.Visuals
import Verif.Lemmas.Visuals
import Verif.Props.Visuals
import Verif.Props.Elements
import Verif.Model.Conv
import Verif.Model.Entry
import Verif.Props.Conv
import Verif.Props.Entry
import Verif.Model.Binding
import Verif.Props.Binding
import Verif.Lemmas.Simpson
import Verif.Lemmas.Taylor
import Verif.Props.Simpson
import Verif.Props.SimpsonLimits
import Verif.Props.Halving
import Verif.Props.PoseJacobian
import Verif.Lemmas.QuatExp
import Verif.Lemmas.MagnusDefect
import Verif.Lemmas.MagnusLocal
import Verif.Lemmas.TurnsExist
import Verif.Props.Order
import Verif.Props.Converge
import Verif.Props.ConvergeFree
import Verif.Props.MotionExist
import Verif.Lemmas.GraphWalk
import Verif.Lemmas.GraphLoop
import Verif.Lemmas.GraphSym
import Verif.Props.GraphShape
import Verif.Props.Floating
import Verif.Props.Displaced
import Verif.Props.Limits
import Verif.Lemmas.GraphMotion
import Verif.Lemmas.GraphForce
import Verif.Lemmas.GraphTwin
import Verif.Props.GraphDyn
import Verif.Lemmas.Reuse
import Verif.Lemmas.ReuseMore
import Verif.Lemmas.ReuseY
import Verif.Lemmas.ReuseKeeps
import Verif.Props.Reuse
import Verif.Lemmas.Lagrange
import Verif.Lemmas.LagrangeMore
import Verif.Props.Through
import Verif.Props.Lagrange
import Verif.Lemmas.GraphLock
import Verif.Props.Locked
import Verif.Props.LockedFix
import Verif.Lemmas.Transpose
import Verif.Props.Transpose
import Verif.Model.BindingCalls
import Verif.Props.BindingCalls
import Verif.Lemmas.Units
import Verif.Props.Units
import Verif.Props.Energy
import Verif.Props.FreeFall
import Verif.Props.Renumber
import Verif.Props.BuildOrder
import Verif.Props.GraphCalls
import Verif.Props.LeastConstraint
import Verif.Props.Reach
import Verif.Props.ReachLocal
import Verif.Props.ReachRedundant
import Verif.Props.Simulate
import Verif.Lemmas.OdeEuler
import Verif.Lemmas.StateDiff
import Verif.Props.SimConverge
import Verif.Lemmas.GraphParts
import Verif.Lemmas.Mirror
import Verif.Props.Mirror
import Verif.Props.MirrorMove
import Verif.Lemmas.OdeGlobal
import Verif.Lemmas.Coercive
import Verif.Lemmas.EnergyGrowth
import Verif.Props.Forever
import Verif.Lemmas.FullState
import Verif.Lemmas.FullFlow
import Verif.Props.AllJoints
import Verif.Props.AllForever
import Verif.Lemmas.StepError
import Verif.Lemmas.StepJoint
import Verif.Lemmas.StepFamily
import Verif.Props.AllConverge
import Verif.Lemmas.Settle
import Verif.Props.Settles
import Verif.Props.Tracking
import Verif.Lemmas.Dirichlet
import Verif.Props.Stable
import Verif.Props.Swing
import Verif.Lemmas.Action
import Verif.Props.Action
import Verif.Lemmas.Legendre
import Verif.Props.Hamilton
import Verif.Lemmas.OdeStart
import Verif.Props.NearStart
import Verif.Lemmas.SubTurn
import Verif.Props.SubTurn
