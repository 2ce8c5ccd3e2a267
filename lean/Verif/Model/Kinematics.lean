import Verif.Model.Config

/-!
Model of `src/RBDyn/FK.cpp`, `src/RBDyn/FV.cpp` and `src/RBDyn/FA.cpp`.
-/

namespace RBDyn
variable {K : Type} [Scalar K]

/-- Loop body of `forwardKinematics`, FK.cpp:26-36. -/
def fkStep (mb : MultiBody K) (mbc : MBC K) (i : Nat) : Res (MBC K) := do
  let pred ← rd mb.pred i
  let succ ← rd mb.succ i
  let j ← rd mb.joints i
  let X ← j.pose (← rd mbc.q i)
  let jointConfig ← wr mbc.jointConfig i X
  let Xp := X * (← rd mb.Xt i)
  let parentToSon ← wr mbc.parentToSon i Xp
  let motionSubspace ← wr mbc.motionSubspace i j.S
  let bodyPosW ←
    if pred ≠ -1 then do wrI mbc.bodyPosW succ (Xp * (← rdI mbc.bodyPosW pred))
    else wrI mbc.bodyPosW succ Xp
  return { mbc with jointConfig, parentToSon, motionSubspace, bodyPosW }

/-- `forwardKinematics(mb, mbc)`, FK.cpp:17-38. -/
def forwardKinematics (mb : MultiBody K) (mbc : MBC K) : Res (MBC K) :=
  (List.range mb.joints.length).foldlM (fkStep mb) mbc

/-- `sForwardKinematics(mb, mbc)`, FK.cpp:40-49. -/
def sForwardKinematics (mb : MultiBody K) (mbc : MBC K) : Res (MBC K) := do
  checkMatchQ mb mbc
  checkMatchBodyPos mb mbc
  checkMatchJointConf mb mbc
  checkMatchParentToSon mb mbc
  forwardKinematics mb mbc

/-- Loop body of `forwardVelocity`, FV.cpp:25-38. -/
def fvStep (mb : MultiBody K) (mbc : MBC K) (i : Nat) : Res (MBC K) := do
  let pred ← rd mb.pred i
  let succ ← rd mb.succ i
  let Xpi ← rd mbc.parentToSon i
  let j ← rd mb.joints i
  let vj ← j.motion (← rd mbc.alpha i)
  let jointVelocity ← wr mbc.jointVelocity i vj
  let bodyVelB ←
    if pred ≠ -1 then do wrI mbc.bodyVelB succ (Xpi.mulMotion (← rdI mbc.bodyVelB pred) + vj)
    else wrI mbc.bodyVelB succ vj
  let E0i := PTransform.ofRot (← rdI mbc.bodyPosW succ).E
  let bodyVelW ← wrI mbc.bodyVelW succ (E0i.invMul (← rdI bodyVelB succ))
  return { mbc with jointVelocity, bodyVelB, bodyVelW }

/-- `forwardVelocity(mb, mbc)`, FV.cpp:17-40. -/
def forwardVelocity (mb : MultiBody K) (mbc : MBC K) : Res (MBC K) :=
  (List.range mb.joints.length).foldlM (fvStep mb) mbc

/-- `sForwardVelocity(mb, mbc)`, FV.cpp:42-54. -/
def sForwardVelocity (mb : MultiBody K) (mbc : MBC K) : Res (MBC K) := do
  checkMatchAlpha mb mbc
  checkMatchBodyPos mb mbc
  checkMatchJointConf mb mbc
  checkMatchParentToSon mb mbc
  checkMatchBodyVel mb mbc
  checkMatchJointVelocity mb mbc
  checkMatchMotionSubspace mb mbc
  forwardVelocity mb mbc

/-- Loop body of `forwardAcceleration`, FA.cpp:25-38. -/
def faStep (mb : MultiBody K) (A0 : MotionVec K) (mbc : MBC K) (i : Nat) : Res (MBC K) := do
  let pred ← rd mb.pred i
  let succ ← rd mb.succ i
  let Xpi ← rd mbc.parentToSon i
  let vj ← rd mbc.jointVelocity i
  let j ← rd mb.joints i
  let atan ← j.tanAccel (← rd mbc.alphaD i)
  let vb ← rd mbc.bodyVelB i
  let bodyAccB ←
    if pred ≠ -1 then do
      wrI mbc.bodyAccB succ (Xpi.mulMotion (← rdI mbc.bodyAccB pred) + atan + vb.cross vj)
    else wrI mbc.bodyAccB succ (Xpi.mulMotion A0 + atan + vb.cross vj)
  return { mbc with bodyAccB }

/-- `forwardAcceleration(mb, mbc, A_0)`, FA.cpp:17-40. -/
def forwardAcceleration (mb : MultiBody K) (mbc : MBC K) (A0 : MotionVec K) : Res (MBC K) :=
  (List.range mb.joints.length).foldlM (faStep mb A0) mbc

/-- `sForwardAcceleration(mb, mbc, A_0)`, FA.cpp:42-52. -/
def sForwardAcceleration (mb : MultiBody K) (mbc : MBC K) (A0 : MotionVec K) : Res (MBC K) := do
  checkMatchAlphaD mb mbc
  checkMatchParentToSon mb mbc
  checkMatchJointVelocity mb mbc
  checkMatchBodyVel mb mbc
  checkMatchBodyAcc mb mbc
  forwardAcceleration mb mbc A0

end RBDyn
