import Verif.Model.Jacobian

/-!
Model of `src/RBDyn/CoM.cpp`. A failed `assert` (total mass not positive) is undefined behaviour. `CoMJacobianDummy` works on `3 × n`
matrices, which are `DMat`; the `3 × n` matrices of `CoMJacobian` are lists of columns.
-/

namespace RBDyn
variable {K : Type} [Scalar K]
open scoped Mat3

/-- `computeCoM(mb, mbc)`, CoM.cpp:15-35. -/
def computeCoM (mb : MultiBody K) (mbc : MBC K) : Res (Vec3 K) := do
  let (com, mass) ← (List.range mb.nrBodies).foldlM (fun (s : Vec3 K × K) i => do
    let b ← rd mb.bodies i
    let W ← rd mbc.bodyPosW i
    let scaled : PTransform K := ⟨W.E, b.inertia.m • W.r⟩
    return (s.1 + (PTransform.ofTrans b.inertia.h * scaled).r, s.2 + b.inertia.m)) (0, 0)
  if 0 < mass then return (1 / mass) • com else .error .ub

/-- `computeCoMVelocity(mb, mbc)`, CoM.cpp:37-60. -/
def computeCoMVelocity (mb : MultiBody K) (mbc : MBC K) : Res (Vec3 K) := do
  let (comV, mass) ← (List.range mb.nrBodies).foldlM (fun (s : Vec3 K × K) i => do
    let b ← rd mb.bodies i
    let W ← rd mbc.bodyPosW i
    let V ← rd mbc.bodyVelB i
    let X : PTransform K := ⟨W.E.tr, b.inertia.h⟩
    let scaledV : MotionVec K := ⟨V.ang, b.inertia.m • V.lin⟩
    return (s.1 + (X.mulMotion scaledV).lin, s.2 + b.inertia.m)) (0, 0)
  if 0 < mass then return (1 / mass) • comV else .error .ub

/-- `computeCoMAcceleration(mb, mbc)`, CoM.cpp:62-93. -/
def computeCoMAcceleration (mb : MultiBody K) (mbc : MBC K) : Res (Vec3 K) := do
  let (comA, mass) ← (List.range mb.nrBodies).foldlM (fun (s : Vec3 K × K) i => do
    let b ← rd mb.bodies i
    let W ← rd mbc.bodyPosW i
    let VW ← rd mbc.bodyVelW i
    let A ← rd mbc.bodyAccB i
    let V ← rd mbc.bodyVelB i
    let X : PTransform K := ⟨W.E.tr, b.inertia.h⟩
    let angvelW : MotionVec K := ⟨VW.ang, 0⟩
    let scaledA : MotionVec K := ⟨A.ang, b.inertia.m • A.lin⟩
    let scaledV : MotionVec K := ⟨V.ang, b.inertia.m • V.lin⟩
    return (s.1 + (X.mulMotion scaledA).lin + (angvelW.cross (X.mulMotion scaledV)).lin, s.2 + b.inertia.m)) (0, 0)
  if 0 < mass then return (1 / mass) • comA else .error .ub

/-- `sComputeCoM`, CoM.cpp:95-99. -/
def sComputeCoM (mb : MultiBody K) (mbc : MBC K) : Res (Vec3 K) := do
  checkMatchBodyPos mb mbc
  computeCoM mb mbc

/-- `sComputeCoMVelocity`, CoM.cpp:101-106. -/
def sComputeCoMVelocity (mb : MultiBody K) (mbc : MBC K) : Res (Vec3 K) := do
  checkMatchBodyPos mb mbc
  checkMatchBodyVel mb mbc
  computeCoMVelocity mb mbc

/-- `sComputeCoMAcceleration`, CoM.cpp:108-114. -/
def sComputeCoMAcceleration (mb : MultiBody K) (mbc : MBC K) : Res (Vec3 K) := do
  checkMatchBodyPos mb mbc
  checkMatchBodyVel mb mbc
  checkMatchBodyAcc mb mbc
  computeCoMAcceleration mb mbc

/-- The centre of mass of a body in its own frame, CoM.cpp:209-211 and 262-265. -/
def Body.com (b : Body K) : Vec3 K := if 0 < b.inertia.m then (1 / b.inertia.m) • b.inertia.h else 0

/-! ### `CoMJacobianDummy` -/

/-- `a.noalias() += b * s`: Eigen asserts equal dimensions. -/
def DMat.addScaled (a b : DMat K) (s : K) : Res (DMat K) :=
  if a.rows = b.rows ∧ a.cols = b.cols then .ok ⟨a.rows, a.cols, fun i j => a.get i j + b.get i j * s⟩ else .error .ub

/-- `a /= s` -/
def DMat.divBy (a : DMat K) (s : K) : DMat K := ⟨a.rows, a.cols, fun i j => a.get i j / s⟩

/-- Class `CoMJacobianDummy`, CoM.h:114-122: its members. -/
structure CoMDummy (K : Type) where
  jac : DMat K
  jacDot : DMat K
  jacFull : DMat K
  jacVec : List (Jac K)
  totalMass : K
  weight : List K

/-- Loop body of `init`, CoM.cpp:207-215. The elements of `jacVec_` are appended instead of overwritten. -/
def CoMDummy.initStep (junk : Nat → MotionVec K) (mb : MultiBody K) (c : CoMDummy K) (i : Nat) : Res (CoMDummy K) := do
  let b ← rd mb.bodies i
  let J ← Jac.mk' junk mb b.name b.com
  return { c with jacVec := c.jacVec ++ [J], totalMass := c.totalMass + b.inertia.m }

/-- `CoMJacobianDummy(mb, weight)`, CoM.cpp:129-141. `junk` and `junkM` are uninitialised memory. -/
def CoMDummy.mk' (junk : Nat → MotionVec K) (junkM : Nat → Nat → K) (mb : MultiBody K) (weight : List K) : Res (CoMDummy K) := do
  let m : DMat K := ⟨3, mb.nrDof, junkM⟩
  let c ← (List.range mb.nrBodies).foldlM (CoMDummy.initStep junk mb) ⟨m, m, m, [], 0, weight⟩
  if c.weight.length ≠ mb.nrBodies then .error .domainError else return c

/-- `CoMJacobianDummy(mb)`, CoM.cpp:122-127 (the size check of the other constructor never fails here). -/
def CoMDummy.mkOnes (junk : Nat → MotionVec K) (junkM : Nat → Nat → K) (mb : MultiBody K) : Res (CoMDummy K) :=
  CoMDummy.mk' junk junkM mb (List.replicate mb.nrBodies 1)

/-- Loop body of `jacobian`, CoM.cpp:153-158. -/
def CoMDummy.jacStep (mb : MultiBody K) (mbc : MBC K) (c : CoMDummy K) (i : Nat) : Res (CoMDummy K) := do
  let J ← (← rd c.jacVec i).jacobian mb mbc
  let full ← J.fullJacobian mb (← (DMat.ofCols J.jac).block 3 0 3 J.jac.length) c.jacFull
  let b ← rd mb.bodies i
  let jac ← c.jac.addScaled full (b.inertia.m * (← rd c.weight i))
  return { c with jac := jac, jacFull := full, jacVec := ← wr c.jacVec i J }

/-- `jacobian(mb, mbc)`, CoM.cpp:145-164. The result is `jac`. -/
def CoMDummy.jacobian (c : CoMDummy K) (mb : MultiBody K) (mbc : MBC K) : Res (CoMDummy K) := do
  let c ← (List.range mb.nrBodies).foldlM (CoMDummy.jacStep mb mbc) { c with jac := c.jac.setZero }
  if 0 < c.totalMass then return { c with jac := c.jac.divBy c.totalMass } else .error .ub

/-- Loop body of `jacobianDot`, CoM.cpp:174-179. -/
def CoMDummy.jacDotStep (mb : MultiBody K) (mbc : MBC K) (c : CoMDummy K) (i : Nat) : Res (CoMDummy K) := do
  let J ← (← rd c.jacVec i).jacobianDot mb mbc
  let full ← J.fullJacobian mb (← (DMat.ofCols J.jacDot).block 3 0 3 J.jacDot.length) c.jacFull
  let b ← rd mb.bodies i
  let jacDot ← c.jacDot.addScaled full (b.inertia.m * (← rd c.weight i))
  return { c with jacDot := jacDot, jacFull := full, jacVec := ← wr c.jacVec i J }

/-- `jacobianDot(mb, mbc)`, CoM.cpp:166-185. The result is `jacDot`. -/
def CoMDummy.jacobianDot (c : CoMDummy K) (mb : MultiBody K) (mbc : MBC K) : Res (CoMDummy K) := do
  let c ← (List.range mb.nrBodies).foldlM (CoMDummy.jacDotStep mb mbc) { c with jacDot := c.jacDot.setZero }
  if 0 < c.totalMass then return { c with jacDot := c.jacDot.divBy c.totalMass } else .error .ub

/-- `sJacobian(mb, mbc)`, CoM.cpp:187-193. -/
def CoMDummy.sJacobian (c : CoMDummy K) (mb : MultiBody K) (mbc : MBC K) : Res (CoMDummy K) := do
  checkMatchBodyPos mb mbc
  checkMatchMotionSubspace mb mbc
  c.jacobian mb mbc

/-- `sJacobianDot(mb, mbc)`, CoM.cpp:195-202. -/
def CoMDummy.sJacobianDot (c : CoMDummy K) (mb : MultiBody K) (mbc : MBC K) : Res (CoMDummy K) := do
  checkMatchBodyPos mb mbc
  checkMatchBodyVel mb mbc
  checkMatchMotionSubspace mb mbc
  c.jacobianDot mb mbc

/-! ### `CoMJacobian` -/

/-- Class `CoMJacobian`, CoM.h:259-274: its members. -/
structure CoMJac (K : Type) where
  jac : List (Vec3 K)
  jacDot : List (Vec3 K)
  coeff : List K
  com : List (PTransform K)
  sub : List (List Nat)
  comWorld : List (PTransform K)
  comVelB : List (MotionVec K)
  normalAcc : List (MotionVec K)
  weight : List K

/-- Second loop of `updateInertialParameters`, CoM.cpp:258-266. -/
def CoMJac.updateStep (mb : MultiBody K) (mass : K) (c : CoMJac K) (i : Nat) : Res (CoMJac K) := do
  let b ← rd mb.bodies i
  let coeff ← wr c.coeff i (b.inertia.m * (← rd c.weight i) / mass)
  let com ← wr c.com i (if 0 < b.inertia.m then .ofTrans ((1 / b.inertia.m) • b.inertia.h) else 1)
  return { c with coeff := coeff, com := com }

/-- `updateInertialParameters(mb)`, CoM.cpp:249-267. -/
def CoMJac.update (c : CoMJac K) (mb : MultiBody K) : Res (CoMJac K) := do
  let mass ← (List.range mb.nrBodies).foldlM (fun s i => do return s + (← rd mb.bodies i).inertia.m) 0
  (List.range mb.nrBodies).foldlM (CoMJac.updateStep mb mass) c

/-- `jointBodiesSuccessors(mb, joint, subBodies)`, CoM.cpp:501-512. `fuel` bounds the depth of the recursion. -/
def jointBodiesSuccessors (mb : MultiBody K) : Nat → Nat → List Nat → Res (List Nat)
  | 0, _, _ => .error .diverges
  | fuel + 1, joint, sub => do
    let son ← mb.successor joint
    let s ← toIdx son
    (List.range mb.nrJoints).foldlM (fun sub (i : Nat) => do
      if (← mb.predecessor (i : Int)) = son then jointBodiesSuccessors mb fuel i sub else pure sub) (sub ++ [s])

/-- `init(mb)`, CoM.cpp:514-523. -/
def CoMJac.init (c : CoMJac K) (mb : MultiBody K) : Res (CoMJac K) := do
  let c ← c.update mb
  let sub ← (List.range mb.nrJoints).foldlM (fun sub i => do
    wr sub i (← jointBodiesSuccessors mb (mb.nrJoints + 1) i (← rd sub i))) c.sub
  return { c with sub := sub }

/-- `CoMJacobian(mb, weight)`, CoM.cpp:233-247. `junkV`, `junkK`, `junkX` and `junkC` are uninitialised memory. -/
def CoMJac.mk' (junkV : Nat → MotionVec K) (junkK : Nat → K) (junkX : Nat → PTransform K) (junkC : Nat → Vec3 K) (mb : MultiBody K)
    (weight : List K) : Res (CoMJac K) :=
  let c : CoMJac K := ⟨(List.range mb.nrDof).map junkC, (List.range mb.nrDof).map junkC, (List.range mb.nrBodies).map junkK,
    (List.range mb.nrBodies).map junkX, (List.range mb.nrJoints).map fun _ => [], (List.range mb.nrBodies).map junkX,
    (List.range mb.nrBodies).map junkV, (List.range mb.nrJoints).map junkV, weight⟩
  if c.weight.length ≠ mb.nrBodies then .error .domainError else c.init mb

/-- `CoMJacobian(mb)`, CoM.cpp:224-231 (the size check of the other constructor never fails here). -/
def CoMJac.mkOnes (junkV : Nat → MotionVec K) (junkK : Nat → K) (junkX : Nat → PTransform K) (junkC : Nat → Vec3 K) (mb : MultiBody K) :
    Res (CoMJac K) := CoMJac.mk' junkV junkK junkX junkC mb (List.replicate mb.nrBodies 1)

/-- `weight(mb, w)`, CoM.cpp:274-278. -/
def CoMJac.setWeight (c : CoMJac K) (mb : MultiBody K) (w : List K) : Res (CoMJac K) := CoMJac.update { c with weight := w } mb

/-- First loop of `jacobian`, CoM.cpp:287-292. -/
def CoMJac.worldStep (mbc : MBC K) (c : CoMJac K) (i : Nat) : Res (CoMJac K) := do
  let X := (← rd c.com i) * (← rd mbc.bodyPosW i)
  return { c with comWorld := ← wr c.comWorld i (.ofTrans X.r) }

/-- The columns of joint `i`, CoM.cpp:297-309; the state is `jac_` and `curJ`. -/
def CoMJac.jacStep (c : CoMJac K) (mb : MultiBody K) (mbc : MBC K) (s : List (Vec3 K) × Nat) (i : Nat) : Res (List (Vec3 K) × Nat) := do
  let Xi0 := (← rd mbc.bodyPosW i).inv
  let j ← rd mb.joints i
  let jac ← (← rd c.sub i).foldlM (fun jac b => do
    let X := (← rd c.comWorld b) * Xi0
    writeCols jac s.2 j.dof fun a old => do
      return old + (← rd c.coeff b) • X.linearMul (← rd (← rd mbc.motionSubspace i) a)) s.1
  return (jac, s.2 + j.dof)

/-- `jacobian(mb, mbc)`, CoM.cpp:280-313. The result is `jac`. -/
def CoMJac.jacobian (c : CoMJac K) (mb : MultiBody K) (mbc : MBC K) : Res (CoMJac K) := do
  let c ← (List.range mb.nrBodies).foldlM (CoMJac.worldStep mbc) c
  let (jac, _) ← (List.range mb.nrJoints).foldlM (c.jacStep mb mbc) (c.jac.map fun _ => 0, 0)
  return { c with jac := jac }

/-- First loop of `jacobianDot`, CoM.cpp:322-326. -/
def CoMJac.worldVelStep (mbc : MBC K) (c : CoMJac K) (i : Nat) : Res (CoMJac K) := do
  let X ← rd c.com i
  let comWorld ← wr c.comWorld i (X * (← rd mbc.bodyPosW i))
  return { c with comWorld := comWorld, comVelB := ← wr c.comVelB i (X.mulMotion (← rd mbc.bodyVelB i)) }

/-- The columns of joint `i`, CoM.cpp:331-356; the state is `jacDot_` and `curJ`. -/
def CoMJac.jacDotStep (c : CoMJac K) (mb : MultiBody K) (mbc : MBC K) (s : List (Vec3 K) × Nat) (i : Nat) : Res (List (Vec3 K) × Nat) := do
  let Xi0 := (← rd mbc.bodyPosW i).inv
  let j ← rd mb.joints i
  let jac ← (← rd c.sub i).foldlM (fun jac b => do
    let X := (← rd c.comWorld b) * Xi0
    let E := PTransform.ofRot (← rd mbc.bodyPosW b).E.tr
    let EV : MotionVec K := ⟨(← rd mbc.bodyVelW b).ang, 0⟩
    let XV := X.mulMotion (← rd mbc.bodyVelB i) - (← rd c.comVelB b)
    writeCols jac s.2 j.dof fun a old => do
      let S ← rd (← rd mbc.motionSubspace i) a
      return old + (← rd c.coeff b) • ((EV.cross ((E * X).mulMotion S)).lin + (E.mulMotion (XV.cross (X.mulMotion S))).lin)) s.1
  return (jac, s.2 + j.dof)

/-- `jacobianDot(mb, mbc)`, CoM.cpp:315-360. The result is `jacDot`. -/
def CoMJac.jacobianDot (c : CoMJac K) (mb : MultiBody K) (mbc : MBC K) : Res (CoMJac K) := do
  let c ← (List.range mb.nrBodies).foldlM (CoMJac.worldVelStep mbc) c
  let (jac, _) ← (List.range mb.nrJoints).foldlM (c.jacDotStep mb mbc) (c.jacDot.map fun _ => 0, 0)
  return { c with jacDot := jac }

/-- `velocity(mb, mbc)`, CoM.cpp:362-376. -/
def CoMJac.velocity (c : CoMJac K) (mb : MultiBody K) (mbc : MBC K) : Res (Vec3 K) :=
  (List.range mb.nrBodies).foldlM (fun v i => do
    let X : PTransform K := ⟨(← rd mbc.bodyPosW i).E.tr, (← rd c.com i).r⟩
    return v + (← rd c.coeff i) • (X.mulMotion (← rd mbc.bodyVelB i)).lin) 0

/-- The loop over the joints that `CoMJacobian::normalAcceleration`, CoM.cpp:383-396, and `CentroidalMomentumMatrix::normalMomentumDot`,
Momentum.cpp:257-270, share. -/
def normalAccStep (mb : MultiBody K) (mbc : MBC K) (acc : List (MotionVec K)) (i : Nat) : Res (List (MotionVec K)) := do
  let X ← rd mbc.parentToSon i
  let vj ← rd mbc.jointVelocity i
  let vb ← rd mbc.bodyVelB i
  let pred ← rd mb.pred i
  let succ ← rd mb.succ i
  if pred ≠ -1 then wrI acc succ (X.mulMotion (← rdI acc pred) + vb.cross vj)
  else wrI acc succ (vb.cross vj)

/-- `normalAcceleration(mb, mbc, normalAccB)`, CoM.cpp:401-421. -/
def CoMJac.normalAccelerationOf (c : CoMJac K) (mb : MultiBody K) (mbc : MBC K) (normalAccB : List (MotionVec K)) : Res (Vec3 K) :=
  (List.range mb.nrBodies).foldlM (fun a i => do
    let X : PTransform K := ⟨(← rd mbc.bodyPosW i).E.tr, (← rd c.com i).r⟩
    let angvelW : MotionVec K := ⟨(← rd mbc.bodyVelW i).ang, 0⟩
    let k ← rd c.coeff i
    return a + k • (X.mulMotion (← rd normalAccB i)).lin + k • (angvelW.cross (X.mulMotion (← rd mbc.bodyVelB i))).lin) 0

/-- `normalAcceleration(mb, mbc)`, CoM.cpp:378-399: the result and the new state of the object. -/
def CoMJac.normalAcceleration (c : CoMJac K) (mb : MultiBody K) (mbc : MBC K) : Res (Vec3 K × CoMJac K) := do
  let acc ← (List.range mb.nrJoints).foldlM (normalAccStep mb mbc) c.normalAcc
  let c := { c with normalAcc := acc }
  return (← c.normalAccelerationOf mb mbc acc, c)

/-! ### Checked versions -/

/-- `sUpdateInertialParameters(mb)`, CoM.cpp:423-433. -/
def CoMJac.sUpdate (c : CoMJac K) (mb : MultiBody K) : Res (CoMJac K) :=
  if c.coeff.length ≠ mb.nrBodies then .error .domainError else c.update mb

/-- `sWeight(mb, w)`, CoM.cpp:435-452. The size of the old weights is checked, not the size of `w`. -/
def CoMJac.sWeight (c : CoMJac K) (mb : MultiBody K) (w : List K) : Res (CoMJac K) :=
  if c.coeff.length ≠ mb.nrBodies then .error .domainError
  else if c.weight.length ≠ mb.nrBodies then .error .domainError
  else c.setWeight mb w

/-- `sJacobian(mb, mbc)`, CoM.cpp:454-460. -/
def CoMJac.sJacobian (c : CoMJac K) (mb : MultiBody K) (mbc : MBC K) : Res (CoMJac K) := do
  checkMatchBodyPos mb mbc
  checkMatchMotionSubspace mb mbc
  c.jacobian mb mbc

/-- `sJacobianDot(mb, mbc)`, CoM.cpp:462-469. -/
def CoMJac.sJacobianDot (c : CoMJac K) (mb : MultiBody K) (mbc : MBC K) : Res (CoMJac K) := do
  checkMatchBodyPos mb mbc
  checkMatchBodyVel mb mbc
  checkMatchMotionSubspace mb mbc
  c.jacobianDot mb mbc

/-- `sVelocity(mb, mbc)`, CoM.cpp:471-477. -/
def CoMJac.sVelocity (c : CoMJac K) (mb : MultiBody K) (mbc : MBC K) : Res (Vec3 K) := do
  checkMatchBodyPos mb mbc
  checkMatchBodyVel mb mbc
  c.velocity mb mbc

/-- `sNormalAcceleration(mb, mbc)`, CoM.cpp:479-487. -/
def CoMJac.sNormalAcceleration (c : CoMJac K) (mb : MultiBody K) (mbc : MBC K) : Res (Vec3 K × CoMJac K) := do
  checkMatchBodyPos mb mbc
  checkMatchBodyVel mb mbc
  checkMatchJointConf mb mbc
  checkMatchParentToSon mb mbc
  c.normalAcceleration mb mbc

/-- `sNormalAcceleration(mb, mbc, normalAccB)`, CoM.cpp:489-498. -/
def CoMJac.sNormalAccelerationOf (c : CoMJac K) (mb : MultiBody K) (mbc : MBC K) (normalAccB : List (MotionVec K)) : Res (Vec3 K) := do
  checkMatchBodyPos mb mbc
  checkMatchBodyVel mb mbc
  checkMatchBodiesVector mb normalAccB
  c.normalAccelerationOf mb mbc normalAccB

end RBDyn
