import Verif.Spec.MultiBody
import Mathlib.Algebra.BigOperators.Group.Finset.Basic

/-! Specification vocabulary for kinematics: values of a configuration by body/joint index, and the quantities the
algorithms must compute, as sums and products along the path from a body to its root. -/

namespace RBDyn
variable {K : Type} [Scalar K]

/-- Pose of joint `i` at the joint positions `q` (identity if there is no such joint or `pose` fails). -/
def MultiBody.poseAt (mb : MultiBody K) (q : List (List K)) (i : Nat) : PTransform K :=
  match mb.joints[i]?, q[i]? with
  | some j, some x => (j.pose x).toOption.getD 1
  | _, _ => 1

/-- Static transform of joint `i`. -/
def MultiBody.XtAt (mb : MultiBody K) (i : Nat) : PTransform K := (mb.Xt[i]?).getD 1

/-- Motion subspace of joint `i`, as a list of columns. -/
def MultiBody.SAt (mb : MultiBody K) (i : Nat) : List (MotionVec K) := ((mb.joints[i]?).map (·.S)).getD []

/-- Number of degrees of freedom of joint `i`. -/
def MultiBody.dofAt (mb : MultiBody K) (i : Nat) : Nat := ((mb.joints[i]?).map (·.dof)).getD 0

/-- Spatial inertia of body `i`. -/
def MultiBody.inertiaAt (mb : MultiBody K) (i : Nat) : RBInertia K := ((mb.bodies[i]?).map (·.inertia)).getD 0

/-- The motion subspace of joint `i` applied to the generalized velocity (or acceleration) `a` of joint `i`. -/
def MultiBody.jointMotion (mb : MultiBody K) (a : List (List K)) (i : Nat) : MotionVec K :=
  applyCols (mb.SAt i) ((a[i]?).getD [])

/-- Transform from the parent of body `i` to body `i` at the joint positions `q`. -/
def MultiBody.ptsAt (mb : MultiBody K) (q : List (List K)) (i : Nat) : PTransform K := mb.poseAt q i * mb.XtAt i

/-- World pose of body `i` at the joint positions `q`: product of the parent-to-son transforms from `i` up to the root. -/
def MultiBody.posAt (mb : MultiBody K) (q : List (List K)) (i : Nat) : PTransform K :=
  ((pathUp mb.par i).map (mb.ptsAt q)).prod

/-- The bodies on the path from body `i` to its root, `i` included. -/
def MultiBody.path (mb : MultiBody K) (i : Nat) : Finset Nat :=
  (Finset.range mb.bodies.length).filter (fun k => k ∈ pathUp mb.par i)

/-- The bodies that hang on joint `i`: those whose path to the root contains `i`. -/
def MultiBody.subtree (mb : MultiBody K) (i : Nat) : Finset Nat :=
  (Finset.range mb.bodies.length).filter (fun k => i ∈ pathUp mb.par k)

/-- Transform from body `k` to body `i` at the joint positions `q`. -/
def MultiBody.relAt (mb : MultiBody K) (q : List (List K)) (k i : Nat) : PTransform K :=
  mb.posAt q i * (mb.posAt q k).inv

/-- Velocity of body `i` in its own frame: the joint velocities along the path to the root, transported to body `i`. -/
def MultiBody.velAt (mb : MultiBody K) (q alpha : List (List K)) (i : Nat) : MotionVec K :=
  ∑ k ∈ mb.path i, (mb.relAt q k i).mulMotion (mb.jointMotion alpha k)

/-- Acceleration of body `i` in its own frame when the world accelerates with `a0`: the transported accelerations
`S αD + v × S α` of the joints along the path. -/
def MultiBody.accAt (mb : MultiBody K) (q alpha alphaD : List (List K)) (a0 : MotionVec K) (i : Nat) : MotionVec K :=
  (mb.posAt q i).mulMotion a0 + ∑ k ∈ mb.path i, (mb.relAt q k i).mulMotion
    (mb.jointMotion alphaD k + (mb.velAt q alpha k).cross (mb.jointMotion alpha k))

/-- All vectors of a configuration have the sizes that belong to the `MultiBody`. -/
structure MBC.Sized (mb : MultiBody K) (mbc : MBC K) : Prop where
  q : SizedQ mb mbc.q
  alpha : SizedDof mb mbc.alpha
  alphaD : SizedDof mb mbc.alphaD
  jointTorque : SizedDof mb mbc.jointTorque
  force : mbc.force.length = mb.bodies.length
  jointConfig : mbc.jointConfig.length = mb.bodies.length
  jointVelocity : mbc.jointVelocity.length = mb.bodies.length
  motionSubspace : mbc.motionSubspace.map List.length = mb.joints.map (·.dof)
  bodyPosW : mbc.bodyPosW.length = mb.bodies.length
  parentToSon : mbc.parentToSon.length = mb.bodies.length
  bodyVelW : mbc.bodyVelW.length = mb.bodies.length
  bodyVelB : mbc.bodyVelB.length = mb.bodies.length
  bodyAccB : mbc.bodyAccB.length = mb.bodies.length

/-- The velocity of body `i` with the orientation of the world frame. -/
def MultiBody.velWAt (mb : MultiBody K) (q alpha : List (List K)) (i : Nat) : MotionVec K :=
  ⟨(mb.posAt q i).E.tr.mulVec (mb.velAt q alpha i).ang, (mb.posAt q i).E.tr.mulVec (mb.velAt q alpha i).lin⟩

/-- The poses stored in the configuration belong to its joint positions (as after `forwardKinematics`). -/
structure MBC.PosReady (mb : MultiBody K) (mbc : MBC K) : Prop where
  parentToSon : mbc.parentToSon = (List.range mb.bodies.length).map (mb.ptsAt mbc.q)
  bodyPosW : mbc.bodyPosW = (List.range mb.bodies.length).map (mb.posAt mbc.q)
  motionSubspace : mbc.motionSubspace = (List.range mb.bodies.length).map mb.SAt

/-- The poses and velocities stored in the configuration belong to its joint positions and velocities (as after
`forwardKinematics` and `forwardVelocity`). -/
structure MBC.VelReady (mb : MultiBody K) (mbc : MBC K) : Prop extends MBC.PosReady mb mbc where
  jointVelocity : mbc.jointVelocity = (List.range mb.bodies.length).map (mb.jointMotion mbc.alpha)
  bodyVelB : mbc.bodyVelB = (List.range mb.bodies.length).map (mb.velAt mbc.q mbc.alpha)
  bodyVelW : mbc.bodyVelW = (List.range mb.bodies.length).map (mb.velWAt mbc.q mbc.alpha)

end RBDyn
